import Mathlib.Tactic.Linarith
import Mathlib.Tactic.NormNum
import Mathlib.Data.List.Nodup
import Mathlib.Data.List.Count
import Mathlib.Algebra.Order.Ring.Rat
import Verif.Model.Tweakreg

/-! # Image alignment: acceptance of corrections (C83) and columns of reference catalogues (C84) -/

set_option linter.unusedSectionVars false

namespace Verif.Thm
open Verif.Tweakreg

section Small
variable {α : Type} [Field α] [LinearOrder α] [IsStrictOrderedRing α] {C R : Type}

/-- Specification: a separation is a number and, in arc seconds, less than twice the sum of the tolerance and the search radius
or, without the two-dimensional histogram, the size of the larger offset. -/
def TwSmall (s : Option α) (use2dhist : Bool) (searchrad tolerance xoffset yoffset : α) : Prop :=
  ∃ x, s = some x ∧
    if use2dhist = true then x / 2 - tolerance < searchrad
    else x / 2 - tolerance < xoffset ∨ x / 2 - tolerance < -xoffset ∨ x / 2 - tolerance < yoffset ∨ x / 2 - tolerance < -yoffset

theorem tw_below (s : Option α) (u : Bool) (r t x y : α) : below s (maxCorr u r t x y) = true ↔ TwSmall s u r t x y := by
  rcases s with _ | s
  · simp [below, TwSmall]
  · simp only [below, TwSmall, Option.some.injEq, exists_eq_left', maxCorr]
    have e : ∀ b : α, s < 2 * (b + t) ↔ s / 2 - t < b := by
      intro b
      constructor <;> intro h <;> linarith
    cases u
    · simp only [Bool.false_eq_true, if_false]
      rw [decide_eq_true_eq, e, lt_max_iff, lt_abs, lt_abs, or_assoc]
    · simp only [if_true]
      rw [decide_eq_true_eq, e]

theorem tw_isSmall (separations : C → List (Option α)) (cs : List C) (u : Bool) (r t x y : α) :
    isSmall separations cs u r t x y = true ↔ ∀ c ∈ cs, ∀ s ∈ separations c, TwSmall s u r t x y := by
  simp only [isSmall]
  induction cs with
  | nil => simp [isSmallLoop]
  | cons c rest ih =>
    rw [isSmallLoop]
    by_cases h : ((separations c).all fun s => below s (maxCorr u r t x y)) = true
    · rw [h]
      simp only [Bool.not_true, Bool.false_eq_true, if_false, ih, List.mem_cons, forall_eq_or_imp]
      rw [List.all_eq_true] at h
      exact ⟨fun h' => ⟨fun s hs => (tw_below s u r t x y).1 (h s hs), h'⟩, And.right⟩
    · rw [Bool.not_eq_true] at h
      rw [h]
      simp only [Bool.not_false, if_true, Bool.false_eq_true, List.mem_cons, forall_eq_or_imp, false_iff]
      rintro ⟨h1, _⟩
      have : ((separations c).all fun s => below s (maxCorr u r t x y)) = true := by
        rw [List.all_eq_true]
        exact fun s hs => (tw_below s u r t x y).2 (h1 s hs)
      rw [h] at this
      exact absurd this (by simp)

/-- **C83**: relative alignment succeeds exactly when the separation parameter is large enough, the fit succeeds, and every
footprint corner of every image moved by less than the limit; it then returns the images of the fit. -/
theorem C83_relative (sqrt2 : α) (separations : C → List (Option α)) (align : List C → Option (List C)) (cs out : List C)
    (u : Bool) (r sep t x y : α) :
    relativeAlign sqrt2 separations align cs u r sep t x y = some out ↔
      sqrt2 * t < sep ∧ align cs = some out ∧ ∀ c ∈ out, ∀ s ∈ separations c, TwSmall s u r t x y := by
  simp only [relativeAlign]
  by_cases h : sep ≤ sqrt2 * t
  · rw [if_pos h]
    simp only [reduceCtorEq, false_iff]
    exact fun h' => absurd h'.1 (not_lt.2 h)
  · rw [if_neg h]
    have hlt := not_le.1 h
    rcases ha : align cs with _ | cs'
    · simp
    · simp only [Option.some.injEq]
      constructor
      · intro h'
        split at h'
        · rename_i hs
          simp only [Option.some.injEq] at h'
          subst h'
          exact ⟨hlt, rfl, (tw_isSmall separations cs' u r t x y).1 hs⟩
        · simp at h'
      · rintro ⟨_, rfl, hs⟩
        rw [if_pos ((tw_isSmall separations cs' u r t x y).2 hs)]

/-- **C83**: absolute alignment succeeds exactly when the separation parameter is large enough, there is a reference catalogue with
enough sources, and the fit of all images as one group succeeds.  Unlike relative alignment, it has no limit on the correction. -/
theorem C83_absolute (sqrt2 : α) (refcat : Option (List R)) (setGroup : C → C) (align : List R → List C → Option (List C))
    (cs out : List C) (sep t : α) (minobj : Nat) :
    absoluteAlign sqrt2 refcat setGroup align cs sep t minobj = some out ↔
      sqrt2 * t < sep ∧ ∃ rows, refcat = some rows ∧ minobj ≤ rows.length ∧ align rows (cs.map setGroup) = some out := by
  simp only [absoluteAlign]
  by_cases h : sep ≤ sqrt2 * t
  · rw [if_pos h]
    simp only [reduceCtorEq, false_iff]
    exact fun h' => absurd h'.1 (not_lt.2 h)
  · rw [if_neg h]
    have hlt := not_le.1 h
    rcases refcat with _ | rows
    · simp
    · simp only [Option.some.injEq, exists_eq_left', hlt, true_and]
      by_cases hr : rows.length < minobj
      · rw [if_pos hr]
        simp only [reduceCtorEq, false_iff]
        exact fun h' => absurd h'.1 (by omega)
      · rw [if_neg hr]
        exact ⟨fun h' => ⟨by omega, h'⟩, And.right⟩

end Small

/-- One image that moved by less than the limit, one with a NaN corner. -/
example : isSmall (fun c : List (Option ℚ) => c) [[some 1, some 5]] true 2 (7/10) 0 0 = true := by decide +kernel
example : isSmall (fun c : List (Option ℚ) => c) [[some 1, none]] true 2 (7/10) 0 0 = false := by decide +kernel
example : relativeAlign (1414/1000 : ℚ) (fun c : List (Option ℚ) => c) some [[some 1]] false 2 1 (7/10) 0 (-1/2) = some [[some 1]] := by
  decide +kernel
example : absoluteAlign (1414/1000 : ℚ) (some [1, 2, 3]) id (fun (_ : List Nat) (c : List Nat) => some c) [5] 1 (7/10) 3 = some [5] := by
  decide +kernel

/-! ### Columns -/

section Columns
variable {γ : Type}

theorem tw_rename (done cols : List (String × γ)) (hn : (done.map Prod.fst ++ cols.map Prod.fst).Nodup) :
    (∀ out, renameAll done cols = some out → out = done ++ cols.map (fun q => (newName q.1, q.2)) ∧ (out.map Prod.fst).Nodup) ∧
    (renameAll done cols = none → ¬ (done.map Prod.fst ++ cols.map fun q => newName q.1).Nodup ∨
      ∃ q ∈ cols, ∃ q' ∈ cols, q.1 ≠ q'.1 ∧ newName q.1 = q'.1) := by
  induction cols generalizing done with
  | nil =>
    refine ⟨fun out h => ?_, fun h => by simp [renameAll] at h⟩
    simp only [renameAll, Option.some.injEq] at h
    subst h
    simpa using hn
  | cons q rest ih =>
    rcases q with ⟨n, c⟩
    rw [renameAll]
    by_cases hc : newName n ≠ n ∧ newName n ∈ (done ++ rest).map Prod.fst
    · rw [if_pos hc]
      refine ⟨fun out h => by simp at h, fun _ => ?_⟩
      rw [List.map_append, List.mem_append] at hc
      rcases hc with ⟨h1, h2 | h2⟩
      · left
        intro hnd
        rw [List.nodup_append] at hnd
        exact hnd.2.2 _ h2 _ (by simp) rfl
      · right
        rcases List.mem_map.1 h2 with ⟨q', hq', he⟩
        exact ⟨(n, c), by simp, q', by simp [hq'], by simp only [he]; exact fun h => h1 h.symm, by simp [he]⟩
    · rw [if_neg hc]
      have hn' : ((done ++ [(newName n, c)]).map Prod.fst ++ rest.map Prod.fst).Nodup := by
        rcases Classical.em (newName n = n) with h1 | h1
        · simpa [h1] using hn
        · have h2 : newName n ∉ (done ++ rest).map Prod.fst := fun h => hc ⟨h1, h⟩
          simp only [List.map_append, List.mem_append, not_or] at h2
          simp only [List.map_cons] at hn
          rw [List.map_append, List.append_assoc, List.map_cons, List.map_nil, List.singleton_append]
          rw [List.nodup_middle] at hn ⊢
          rw [List.nodup_cons] at hn ⊢
          exact ⟨by simp only [List.mem_append, not_or]; exact h2, hn.2⟩
      have := ih (done ++ [(newName n, c)]) hn'
      refine ⟨fun out h => ?_, fun h => ?_⟩
      · have := this.1 out h
        simpa using this
      · rcases this.2 h with h' | ⟨q, hq, q', hq', h1, h2⟩
        · left
          simpa using h'
        · exact Or.inr ⟨q, by simp [hq], q', by simp [hq'], h1, h2⟩

/-- Specification: the kind of a column, disregarding case. -/
inductive TwKind where
  | ra | dec | centroid | other
  deriving DecidableEq

/-- Specification: the kind of a column name. -/
def twKind (n : String) : TwKind :=
  if n.toUpper = "RA" then .ra else if n.toUpper = "DEC" then .dec else if n.toLower = "sky_centroid" then .centroid else .other

/-- Specification: not more than one column of a kind. -/
def TwUnique (cols : List (String × γ)) (k : TwKind) : Prop :=
  ∀ q ∈ cols, ∀ q' ∈ cols, twKind q.1 = k → twKind q'.1 = k → q = q'

/-- Specification: a column of a kind. -/
def TwHas (cols : List (String × γ)) (k : TwKind) : Prop := ∃ q ∈ cols, twKind q.1 = k

theorem tw_new_ra : newName "RA" = "RA" := by decide +kernel
theorem tw_new_dec : newName "DEC" = "DEC" := by decide +kernel
theorem tw_new_sc : newName "sky_centroid" = "sky_centroid" := by decide +kernel

theorem tw_newName (n : String) :
    newName n = match twKind n with | .ra => "RA" | .dec => "DEC" | .centroid => "sky_centroid" | .other => n := by
  simp only [newName, twKind]
  by_cases h1 : n.toUpper = "RA"
  · simp [h1]
  · by_cases h2 : n.toUpper = "DEC"
    · simp [h2]
    · by_cases h3 : n.toLower = "sky_centroid"
      · simp [h1, h2, h3]
      · simp [h1, h2, h3]

theorem tw_kind_new (n : String) : twKind (newName n) = twKind n := by
  have h1 : twKind "RA" = .ra := by decide +kernel
  have h2 : twKind "DEC" = .dec := by decide +kernel
  have h3 : twKind "sky_centroid" = .centroid := by decide +kernel
  rw [tw_newName]
  rcases h : twKind n <;> simp [h1, h2, h3, h]

theorem tw_new_eq_ra (n : String) : newName n = "RA" ↔ twKind n = .ra := by
  constructor
  · intro h
    rw [← tw_kind_new, h]
    decide +kernel
  · intro h
    rw [tw_newName, h]

theorem tw_new_eq_dec (n : String) : newName n = "DEC" ↔ twKind n = .dec := by
  constructor
  · intro h
    rw [← tw_kind_new, h]
    decide +kernel
  · intro h
    rw [tw_newName, h]

theorem tw_new_eq_sc (n : String) : newName n = "sky_centroid" ↔ twKind n = .centroid := by
  constructor
  · intro h
    rw [← tw_kind_new, h]
    decide +kernel
  · intro h
    rw [tw_newName, h]

theorem tw_new_idem (n : String) : newName (newName n) = newName n := by
  rw [tw_newName (newName n), tw_kind_new]
  rcases h : twKind n <;> simp [tw_newName, h]

/-- Columns under their new names. -/
def twRenamed (cols : List (String × γ)) : List (String × γ) := cols.map fun q => (newName q.1, q.2)

theorem tw_renamed_names (cols : List (String × γ)) : (twRenamed cols).map Prod.fst = cols.map fun q => newName q.1 := by
  simp [twRenamed]

theorem tw_names_inj (cols : List (String × γ)) (hn : (cols.map Prod.fst).Nodup) (q q' : String × γ) (hq : q ∈ cols) (hq' : q' ∈ cols)
    (h : q.1 = q'.1) : q = q' := (List.nodup_map_iff_inj_on hn.of_map).1 hn q hq q' hq' h

theorem tw_nodup_iff (cols : List (String × γ)) (hn : (cols.map Prod.fst).Nodup) :
    (cols.map fun q => newName q.1).Nodup ↔ TwUnique cols .ra ∧ TwUnique cols .dec ∧ TwUnique cols .centroid := by
  rw [List.nodup_map_iff_inj_on hn.of_map]
  constructor
  · intro h
    exact ⟨fun q hq q' hq' h1 h2 => h q hq q' hq' (((tw_new_eq_ra _).2 h1).trans ((tw_new_eq_ra _).2 h2).symm),
      fun q hq q' hq' h1 h2 => h q hq q' hq' (((tw_new_eq_dec _).2 h1).trans ((tw_new_eq_dec _).2 h2).symm),
      fun q hq q' hq' h1 h2 => h q hq q' hq' (((tw_new_eq_sc _).2 h1).trans ((tw_new_eq_sc _).2 h2).symm)⟩
  · rintro ⟨h1, h2, h3⟩ q hq q' hq' h
    have hk : twKind q.1 = twKind q'.1 := by rw [← tw_kind_new q.1, h, tw_kind_new]
    rcases hq1 : twKind q.1
    · exact h1 q hq q' hq' hq1 (hk ▸ hq1)
    · exact h2 q hq q' hq' hq1 (hk ▸ hq1)
    · exact h3 q hq q' hq' hq1 (hk ▸ hq1)
    · rw [tw_newName, tw_newName q'.1, ← hk, hq1] at h
      exact tw_names_inj cols hn q q' hq hq' h

theorem tw_renameAll (cols : List (String × γ)) (hn : (cols.map Prod.fst).Nodup) :
    (TwUnique cols .ra ∧ TwUnique cols .dec ∧ TwUnique cols .centroid ∧ renameAll [] cols = some (twRenamed cols) ∧
      ((twRenamed cols).map Prod.fst).Nodup) ∨
    (¬ (TwUnique cols .ra ∧ TwUnique cols .dec ∧ TwUnique cols .centroid) ∧ renameAll [] cols = none) := by
  have hr := tw_rename [] cols (by simpa using hn)
  rcases h : renameAll [] cols with _ | out
  · right
    refine ⟨fun hu => ?_, rfl⟩
    have hnd := (tw_nodup_iff cols hn).2 hu
    rcases hr.2 h with h' | ⟨q, hq, q', hq', h1, h2⟩
    · exact h' (by simpa using hnd)
    · have h3 : newName q.1 = newName q'.1 := by rw [← h2, tw_new_idem]
      exact h1 (congrArg Prod.fst ((List.nodup_map_iff_inj_on hn.of_map).1 hnd q hq q' hq' h3))
  · left
    have := hr.1 out h
    simp only [List.nil_append] at this
    have e : out = twRenamed cols := this.1
    subst e
    have hnd := this.2
    rw [tw_renamed_names] at hnd
    have hu := (tw_nodup_iff cols hn).1 hnd
    exact ⟨hu.1, hu.2.1, hu.2.2, rfl, this.2⟩

theorem tw_count (cols : List (String × γ)) (n : String) (k : TwKind) (hk : ∀ m, newName m = n ↔ twKind m = k)
    (hnd : ((twRenamed cols).map Prod.fst).Nodup) :
    ((twRenamed cols).map Prod.fst).count n ≤ 1 ∧ (((twRenamed cols).map Prod.fst).count n = 1 ↔ TwHas cols k) := by
  have hle := List.nodup_iff_count_le_one.1 hnd n
  refine ⟨hle, ?_⟩
  have : TwHas cols k ↔ n ∈ (twRenamed cols).map Prod.fst := by
    rw [tw_renamed_names, List.mem_map]
    simp only [TwHas, hk]
  rw [this, ← List.count_pos_iff]
  omega

theorem tw_mem_renamed (cols : List (String × γ)) (q : String × γ) :
    q ∈ twRenamed cols ↔ ∃ m, newName m = q.1 ∧ (m, q.2) ∈ cols := by
  simp only [twRenamed, List.mem_map]
  constructor
  · rintro ⟨p, hp, rfl⟩
    exact ⟨p.1, rfl, hp⟩
  · rintro ⟨m, hm, h⟩
    exact ⟨(m, q.2), h, Prod.ext hm rfl⟩

/-- **C84**: a reference catalogue is accepted exactly when, disregarding case, there is not more than one column RA, DEC and sky_centroid
each, and either both RA and DEC, or sky_centroid. -/
theorem C84_accepted (ra dec : γ → γ) (cols : List (String × γ)) (hn : (cols.map Prod.fst).Nodup) :
    parseSkyCentroid ra dec cols ≠ none ↔
      (TwUnique cols .ra ∧ TwUnique cols .dec ∧ TwUnique cols .centroid) ∧
      ((TwHas cols .ra ∧ TwHas cols .dec) ∨ TwHas cols .centroid) := by
  rcases tw_renameAll cols hn with ⟨u1, u2, u3, hr, hnd⟩ | ⟨hu, hr⟩
  · have c1 := tw_count cols "RA" .ra tw_new_eq_ra hnd
    have c2 := tw_count cols "DEC" .dec tw_new_eq_dec hnd
    have c3 := tw_count cols "sky_centroid" .centroid tw_new_eq_sc hnd
    have hfind : TwHas cols .centroid → ∃ sc, (twRenamed cols).find? (fun q => decide (q.1 = "sky_centroid")) = some sc := by
      rintro ⟨q, hq, hk⟩
      rw [← Option.isSome_iff_exists, List.find?_isSome]
      exact ⟨(newName q.1, q.2), (tw_mem_renamed cols _).2 ⟨q.1, rfl, hq⟩, by simpa using (tw_new_eq_sc q.1).2 hk⟩
    rw [← c1.2, ← c2.2]
    rw [← c3.2] at hfind ⊢
    simp only [parseSkyCentroid, hr]
    generalize ((twRenamed cols).map Prod.fst).count "RA" = n1 at *
    generalize ((twRenamed cols).map Prod.fst).count "DEC" = n2 at *
    generalize ((twRenamed cols).map Prod.fst).count "sky_centroid" = n3 at *
    rw [if_neg (by omega)]
    by_cases h12 : n1 = 1 ∧ n2 = 1
    · rw [if_pos h12]
      simp only [u1, u2, u3, h12, and_self, true_or, iff_true]
      split <;> simp
    · rw [if_neg h12, if_neg (by omega)]
      by_cases h3 : n3 = 0
      · rw [if_pos h3]
        simp [h12, h3]
      · rw [if_neg h3]
        rcases hfind (by omega) with ⟨sc, hsc⟩
        rw [hsc]
        simp only [ne_eq, reduceCtorEq, not_false_iff, true_iff]
        exact ⟨⟨u1, u2, u3⟩, Or.inr (by omega)⟩
  · simp only [parseSkyCentroid, hr, ne_eq, not_true, false_iff]
    exact fun h => hu h.1

/-- **C84**: with both RA and DEC, the result has these columns under their upper-case names and the other columns, without
sky_centroid. -/
theorem C84_ra_dec (ra dec : γ → γ) (cols out : List (String × γ)) (hn : (cols.map Prod.fst).Nodup)
    (h : parseSkyCentroid ra dec cols = some out) (h1 : TwHas cols .ra) (h2 : TwHas cols .dec) (n : String) (c : γ) :
    (n, c) ∈ out ↔ (n = "RA" ∧ ∃ m, twKind m = .ra ∧ (m, c) ∈ cols) ∨ (n = "DEC" ∧ ∃ m, twKind m = .dec ∧ (m, c) ∈ cols) ∨
      (twKind n = .other ∧ (n, c) ∈ cols) := by
  rcases tw_renameAll cols hn with ⟨u1, u2, u3, hr, hnd⟩ | ⟨hu, hr⟩
  · have c1 := (tw_count cols "RA" .ra tw_new_eq_ra hnd).2.2 h1
    have c2 := (tw_count cols "DEC" .dec tw_new_eq_dec hnd).2.2 h2
    simp only [parseSkyCentroid, hr, c1, c2] at h
    have hout : (n, c) ∈ out ↔ (n, c) ∈ twRenamed cols ∧ n ≠ "sky_centroid" := by
      simp only [gt_iff_lt, lt_irrefl, or_self, if_false, and_self, if_true] at h
      split at h
      · simp only [Option.some.injEq] at h
        subst h
        simp [List.mem_filter]
      · simp only [Option.some.injEq] at h
        subst h
        refine ⟨fun hm => ⟨hm, ?_⟩, And.left⟩
        rintro rfl
        rename_i h0
        exact h0 (List.count_pos_iff.2 (List.mem_map.2 ⟨_, hm, rfl⟩))
    rw [hout, tw_mem_renamed]
    constructor
    · rintro ⟨⟨m, hm, hc⟩, hsc⟩
      simp only at hm hc
      rcases hk : twKind m
      · exact Or.inl ⟨hm.symm.trans ((tw_new_eq_ra m).2 hk), m, hk, hc⟩
      · exact Or.inr (Or.inl ⟨hm.symm.trans ((tw_new_eq_dec m).2 hk), m, hk, hc⟩)
      · exact absurd (hm.symm.trans ((tw_new_eq_sc m).2 hk)) hsc
      · have : newName m = m := by rw [tw_newName, hk]
        rw [this] at hm
        subst hm
        exact Or.inr (Or.inr ⟨hk, hc⟩)
    · rintro (⟨rfl, m, hk, hc⟩ | ⟨rfl, m, hk, hc⟩ | ⟨hk, hc⟩)
      · exact ⟨⟨m, (tw_new_eq_ra m).2 hk, hc⟩, by decide⟩
      · exact ⟨⟨m, (tw_new_eq_dec m).2 hk, hc⟩, by decide⟩
      · refine ⟨⟨n, by rw [tw_newName, hk], hc⟩, ?_⟩
        rintro rfl
        have : twKind "sky_centroid" = .centroid := by decide +kernel
        rw [this] at hk
        exact absurd hk (by decide)
  · simp [parseSkyCentroid, hr] at h

theorem tw_mem_setCol (cols : List (String × γ)) (n : String) (c : γ) (q : String × γ) :
    q ∈ setCol cols n c ↔ q = (n, c) ∨ (q.1 ≠ n ∧ q ∈ cols) := by
  simp only [setCol]
  split
  · rename_i h
    rw [List.mem_map]
    constructor
    · rintro ⟨p, hp, rfl⟩
      by_cases hpn : p.1 = n
      · simp [hpn]
      · simp [hpn, hp]
    · rintro (rfl | ⟨h1, h2⟩)
      · rcases List.mem_map.1 h with ⟨p, hp, hpn⟩
        exact ⟨p, hp, by simp [hpn]⟩
      · exact ⟨q, h2, by simp [h1]⟩
  · rename_i h
    rw [List.mem_append, List.mem_singleton]
    constructor
    · rintro (hq | hq)
      · exact Or.inr ⟨fun he => h (List.mem_map.2 ⟨q, hq, he⟩), hq⟩
      · exact Or.inl hq
    · rintro (hq | ⟨_, hq⟩)
      · exact Or.inr hq
      · exact Or.inl hq

/-- **C84**: otherwise RA and DEC are the coordinates of sky_centroid, which is removed, and the other columns are unchanged. -/
theorem C84_centroid (ra dec : γ → γ) (cols out : List (String × γ)) (hn : (cols.map Prod.fst).Nodup)
    (h : parseSkyCentroid ra dec cols = some out) (h12 : ¬ (TwHas cols .ra ∧ TwHas cols .dec)) :
    ∃ m sc, twKind m = .centroid ∧ (m, sc) ∈ cols ∧ ∀ n c, (n, c) ∈ out ↔
      (n = "RA" ∧ c = ra sc) ∨ (n = "DEC" ∧ c = dec sc) ∨ (twKind n = .other ∧ (n, c) ∈ cols) := by
  rcases tw_renameAll cols hn with ⟨u1, u2, u3, hr, hnd⟩ | ⟨hu, hr⟩
  · have c1 := (tw_count cols "RA" .ra tw_new_eq_ra hnd)
    have c2 := (tw_count cols "DEC" .dec tw_new_eq_dec hnd)
    have c3 := (tw_count cols "sky_centroid" .centroid tw_new_eq_sc hnd)
    rw [← c1.2, ← c2.2] at h12
    simp only [parseSkyCentroid, hr] at h
    rw [if_neg (by omega), if_neg h12, if_neg (by omega)] at h
    split at h
    · simp at h
    · rcases hf : (twRenamed cols).find? (fun q => decide (q.1 = "sky_centroid")) with _ | sc
      · rw [hf] at h
        simp at h
      · rw [hf] at h
        simp only [Option.some.injEq] at h
        have hsc := List.find?_some hf
        rw [decide_eq_true_eq] at hsc
        rcases (tw_mem_renamed cols sc).1 (List.mem_of_find?_eq_some hf) with ⟨m, hm, hmem⟩
        refine ⟨m, sc.2, (tw_new_eq_sc m).1 (hm.trans hsc), hmem, fun n c => ?_⟩
        subst h
        rw [List.mem_filter, tw_mem_setCol, tw_mem_setCol, tw_mem_renamed]
        simp only [Prod.mk.injEq, ne_eq, decide_not, Bool.not_eq_true', decide_eq_false_iff_not]
        constructor
        · rintro ⟨h' | ⟨hd, h' | ⟨hra, m', hm', hc⟩⟩, hs⟩
          · exact Or.inr (Or.inl h')
          · exact Or.inl h'
          · have hk : twKind m' = .other := by
              rcases hk : twKind m'
              · exact absurd (hm'.symm.trans ((tw_new_eq_ra m').2 hk)) hra
              · exact absurd (hm'.symm.trans ((tw_new_eq_dec m').2 hk)) hd
              · exact absurd (hm'.symm.trans ((tw_new_eq_sc m').2 hk)) hs
              · rfl
            have : newName m' = m' := by rw [tw_newName, hk]
            rw [this] at hm'
            subst hm'
            exact Or.inr (Or.inr ⟨hk, hc⟩)
        · rintro (⟨rfl, rfl⟩ | ⟨rfl, rfl⟩ | ⟨hk, hc⟩)
          · exact ⟨Or.inr ⟨by decide, Or.inl ⟨rfl, rfl⟩⟩, by decide⟩
          · exact ⟨Or.inl ⟨rfl, rfl⟩, by decide⟩
          · have hne : ∀ s, twKind s ≠ .other → n ≠ s := by
              rintro s hs rfl
              exact hs hk
            exact ⟨Or.inr ⟨hne _ (by decide +kernel), Or.inr ⟨hne _ (by decide +kernel), n, by rw [tw_newName, hk], hc⟩⟩,
              hne _ (by decide +kernel)⟩
  · simp [parseSkyCentroid, hr] at h

end Columns

example : parseSkyCentroid (· + 1) (· + 2) [("id", 1), ("Ra", 2), ("dec", 3), ("Sky_Centroid", 10)] =
    some [("id", 1), ("RA", 2), ("DEC", 3)] := by decide +kernel

example : parseSkyCentroid (· + 1) (· + 2) [("id", 1), ("ra", 2), ("Sky_Centroid", 10)] =
    some [("id", 1), ("RA", 11), ("DEC", 12)] := by decide +kernel

end Verif.Thm
