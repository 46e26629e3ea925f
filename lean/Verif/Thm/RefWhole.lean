import Verif.Thm.RefCat

/-!
# C127: the reference catalogue as a whole
-/

namespace Verif.Thm

open Verif.Aberration (Vec dot)
open Verif.Angles Verif.RefCat

/-- A position within the footprint: its direction is a combination of the directions of the vertices with weights that are not
negative. -/
def CwIn (foot : List (ℝ × ℝ)) (p : ℝ × ℝ) : Prop :=
  ∃ k : List (ℝ × (ℝ × ℝ)), (∀ q ∈ k, 0 ≤ q.1 ∧ q.2 ∈ foot) ∧ anUnit p.1 p.2 = rcSum (k.map fun q => (q.1, anUnit q.2.1 q.2.2))

/-- What is assumed about the catalogue and the cone search: no partition encloses another one, files hold rows of their cell, the cells found
by the cone search include those of all rows within the radius. -/
structure CwCat {ρ : Type} (parts : List (Nat × Nat)) (cone : ℝ × ℝ → ℝ → Nat → List Nat) (file : Nat × Nat → List (Src ρ))
    (index : Src ρ → Nat) (D : Nat) : Prop where
  nodup : parts.Nodup
  disjoint : CtDisjoint parts
  deepest : ∀ p ∈ parts, p.1 ≤ D
  reached : ∃ p ∈ parts, p.1 = D
  depth : D ≤ 29
  rows : ∀ p ∈ parts, ∀ s ∈ file p, CtEncloses p 29 (index s)
  cone : ∀ c r, ∀ p ∈ parts, ∀ s ∈ file p, Verif.Catalog.Kept s.ra s.dec c.1 c.2 r → index s / 4 ^ (29 - D) ∈ cone c r D

theorem cw_mem {ρ : Type} (earth : ℝ → Vec) (parts : List (Nat × Nat)) (cone : ℝ × ℝ → ℝ → Nat → List Nat) (file : Nat × Nat → List (Src ρ))
    (index : Src ρ → Nat) (D : Nat) (hc : CwCat parts cone file index D) (c : ℝ × ℝ) (r : ℝ) (epoch : Option ℝ) (he : epoch ≠ some 0) :
    ∃ t, s3Catalog earth parts (cone c r) file index c r epoch = some t ∧ ∀ s', s' ∈ t ↔
      ∃ p ∈ parts, ∃ s ∈ file p, Verif.Catalog.Kept s.ra s.dec c.1 c.2 r ∧
        (epoch = none ∧ s' = s ∨ ∃ e, epoch = some e ∧ moveStar earth e s = some s') := by
  obtain ⟨rows, h1, h2⟩ := C59_complete parts hc.nodup hc.disjoint (cone c r) file index D hc.deepest hc.reached hc.depth hc.rows
  have hm : ∀ s, s ∈ filterTable c r rows ↔ ∃ p ∈ parts, s ∈ file p ∧ Verif.Catalog.Kept s.ra s.dec c.1 c.2 r := by
    intro s
    simp only [filterTable, List.mem_filter, decide_eq_true_eq, h2.mem_iff, List.mem_flatMap]
    constructor
    · rintro ⟨⟨⟨p, hp, hs⟩, -⟩, hk⟩
      exact ⟨p, hp, hs, hk⟩
    · rintro ⟨p, hp, hs, hk⟩
      exact ⟨⟨⟨p, hp, hs⟩, hc.cone c r p hp s hs hk⟩, hk⟩
  cases epoch with
  | none =>
    refine ⟨filterTable c r rows, by simp [s3Catalog, hatsSources, h1], fun s' => ?_⟩
    rw [hm]
    constructor
    · rintro ⟨p, hp, hs, hk⟩
      exact ⟨p, hp, s', hs, hk, Or.inl ⟨rfl, rfl⟩⟩
    · rintro ⟨p, hp, s, hs, hk, ⟨-, rfl⟩ | ⟨e, he, -⟩⟩
      · exact ⟨p, hp, hs, hk⟩
      · simp at he
  | some e =>
    have he0 : e ≠ 0 := fun h => he (by rw [h])
    refine ⟨correct earth e (filterTable c r rows), by simp [s3Catalog, hatsSources, h1, he0], fun s' => ?_⟩
    simp only [correct, List.mem_filterMap, hm]
    constructor
    · rintro ⟨s, ⟨p, hp, hs, hk⟩, hmv⟩
      exact ⟨p, hp, s, hs, hk, Or.inr ⟨e, rfl, hmv⟩⟩
    · rintro ⟨p, hp, s, hs, hk, ⟨h, -⟩ | ⟨e', he', hmv⟩⟩
      · simp at h
      · rw [Option.some.injEq] at he'
        subst he'
        exact ⟨s, ⟨p, hp, hs, hk⟩, hmv⟩

/-- C127.  Without a limit of sources the reference catalogue has all rows within the footprint, at their positions of the epoch asked for, if the field
has a radius of at most 90 degrees; and no row whose position in the catalogue is further from the fiducial point than all
vertices. -/
theorem C127_all {ρ : Type} (junk : (ℝ × ℝ) × ℝ) (foot : List (ℝ × ℝ)) (earth : ℝ → Vec) (parts : List (Nat × Nat))
    (cone : ℝ × ℝ → ℝ → Nat → List Nat) (file : Nat × Nat → List (Src ρ)) (index : Src ρ → Nat) (D : Nat) (hc : CwCat parts cone file index D)
    (epoch : Option ℝ) (he : epoch ≠ some 0) (sort : List (Src ρ) → List (Src ρ)) (hperm : ∀ t, (sort t).Perm t)
    (r : ℝ) (f : ℝ × ℝ) (hr : computeRadius junk foot = some (r, f)) (h90 : r ≤ 90) :
    ∃ t, createCatalog junk foot earth parts cone file index epoch sort none = some t ∧
      (epoch = none → ∀ p ∈ parts, ∀ s ∈ file p, CwIn foot (s.ra, s.dec) → s ∈ t) ∧
      (∀ e, epoch = some e → ∀ p ∈ parts, ∀ s ∈ file p, CwIn foot (s.ra, s.dec) → ∀ s', moveStar earth e s = some s' → s' ∈ t) ∧
      ∀ s' ∈ t, ∃ p ∈ parts, ∃ s ∈ file p, Real.cos (r * Real.pi / 180) ≤ dot (anUnit f.1 f.2) (anUnit s.ra s.dec) ∧
        (epoch = none ∧ s' = s ∨ ∃ e, epoch = some e ∧ moveStar earth e s = some s') := by
  obtain ⟨t, h1, h2⟩ := cw_mem earth parts cone file index D hc f r epoch he
  have hm : ∀ s', s' ∈ (if t.length = 0 then t else Verif.Catalog.limitSources sort t none) ↔ s' ∈ t := by
    intro s'
    split
    · rfl
    · exact (C60_no_limit sort hperm t).mem_iff
  refine ⟨_, by rw [createCatalog, hr, Option.bind_some, h1, Option.map_some], ?_, ?_, ?_⟩
  · rintro rfl p hp s hs ⟨k, hk, hin⟩
    rw [hm, h2]
    exact ⟨p, hp, s, hs, C115_cover junk foot r f hr h90 _ _ k hk hin, Or.inl ⟨rfl, rfl⟩⟩
  · rintro e rfl p hp s hs ⟨k, hk, hin⟩ s' hs'
    rw [hm, h2]
    exact ⟨p, hp, s, hs, C115_cover junk foot r f hr h90 _ _ k hk hin, Or.inr ⟨e, rfl, hs'⟩⟩
  · intro s' hs'
    rw [hm, h2] at hs'
    obtain ⟨p, hp, s, hs, hk, hm'⟩ := hs'
    refine ⟨p, hp, s, hs, ?_, hm'⟩
    exact (rc_kept _ _ _ _ _).1 hk

/-- C127.  With a limit of `n` sources the catalogue has the `n` brightest, or all if there are fewer, of the catalogue without limit. -/
theorem C127_brightest {ρ : Type} (junk : (ℝ × ℝ) × ℝ) (foot : List (ℝ × ℝ)) (earth : ℝ → Vec) (parts : List (Nat × Nat))
    (cone : ℝ × ℝ → ℝ → Nat → List Nat) (file : Nat × Nat → List (Src ρ)) (index : Src ρ → Nat) (epoch : Option ℝ)
    (mag : Src ρ → ℝ) (sort : List (Src ρ) → List (Src ρ)) (hperm : ∀ t, (sort t).Perm t)
    (hsort : ∀ t, (sort t).Pairwise fun a b => mag b ≤ mag a) (n : Nat) (hn : 0 < n) (all : List (Src ρ))
    (h : createCatalog junk foot earth parts cone file index epoch sort none = some all) :
    ∃ t out, createCatalog junk foot earth parts cone file index epoch sort (some n) = some t ∧ t.length = min n all.length ∧
      (out ++ t).Perm all ∧ ∀ a ∈ t, ∀ b ∈ out, mag a ≤ mag b := by
  simp only [createCatalog, Option.bind_eq_some_iff, Option.map_eq_some_iff] at h
  obtain ⟨⟨r, f⟩, hr, t, ht, hall⟩ := h
  have hp : all.Perm t := by
    rw [← hall]
    split
    · exact List.Perm.refl _
    · exact C60_no_limit sort hperm t
  by_cases h0 : t.length = 0
  · refine ⟨t, [], by simp only [createCatalog, hr, ht, Option.bind_some, Option.map_some, h0, if_true], by rw [hp.length_eq, h0]; simp, by simpa using hp.symm, by simp⟩
  · obtain ⟨h1, out, h2, h3, -⟩ := C60_limit_partial mag sort hperm hsort t (n : Int) (by omega)
    refine ⟨_, out, by simp only [createCatalog, hr, ht, Option.bind_some, Option.map_some, h0, if_false], ?_, h2.trans hp.symm, h3 (by omega)⟩
    rw [h1, hp.length_eq]
    simp

/-- C127 (finding).  Whether a source is in the field is decided by its position in the catalogue, before the correction for proper motion.  A source that has
moved into the footprint from outside the radius is missing. -/
theorem C127_old_position {ρ : Type} (junk : (ℝ × ℝ) × ℝ) (foot : List (ℝ × ℝ)) (earth : ℝ → Vec) (parts : List (Nat × Nat))
    (cone : ℝ × ℝ → ℝ → Nat → List Nat) (file : Nat × Nat → List (Src ρ)) (index : Src ρ → Nat) (D : Nat) (hc : CwCat parts cone file index D)
    (e : ℝ) (he : e ≠ 0) (sort : List (Src ρ) → List (Src ρ)) (hperm : ∀ t, (sort t).Perm t) (r : ℝ) (f : ℝ × ℝ)
    (hr : computeRadius junk foot = some (r, f)) (h90 : r ≤ 90) (s' : Src ρ)
    (hout : ∀ p ∈ parts, ∀ s ∈ file p, moveStar earth e s = some s' → dot (anUnit f.1 f.2) (anUnit s.ra s.dec) < Real.cos (r * Real.pi / 180)) :
    ∃ t, createCatalog junk foot earth parts cone file index (some e) sort none = some t ∧ s' ∉ t := by
  obtain ⟨t, h1, -, -, h2⟩ := C127_all junk foot earth parts cone file index D hc (some e) (by simpa using he) sort hperm r f hr h90
  refine ⟨t, h1, fun hm => ?_⟩
  obtain ⟨p, hp, s, hs, hd, ⟨h, -⟩ | ⟨e', he', hmv⟩⟩ := h2 s' hm
  · simp at h
  · rw [Option.some.injEq] at he'
    subst he'
    exact absurd hd (not_le.mpr (hout p hp s hs hmv))

/-- C127.  A reading that takes longer than the timeout is an error.  (Finding) But the call does not end before the reading, whatever the timeout is. -/
theorem C127_timeout {β : Type} (work timeout : Nat) (r : β) :
    ((waitFor work timeout r).1 = none ↔ timeout < work) ∧ (waitFor work timeout r).2 = work := by
  constructor
  · simp [waitFor]
  · simp only [waitFor]
    omega

/-! ### Example: one partition with one row -/

noncomputable def cwRow : Src Nat := ⟨0, 0, 2016, some 3, none, some 1, 7⟩

/-- The hypotheses of `C127_all`: a catalogue with one partition of depth zero that holds one row. -/
theorem cw_example : CwCat [(0, 3)] (fun _ _ _ => [3]) (fun p => if p = (0, 3) then [cwRow] else []) (fun _ => 3 * 4 ^ 29 + 5) 0 where
  nodup := by simp
  disjoint := by simp [CtDisjoint]
  deepest := by simp
  reached := by simp
  depth := by omega
  rows := by
    intro p hp s hs
    simp only [List.mem_singleton] at hp
    subst hp
    simp only [CtEncloses]
    norm_num
  cone := by
    intro c r p hp s hs _
    norm_num

end Verif.Thm
