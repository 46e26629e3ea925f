import Mathlib.Tactic.IntervalCases
import Verif.Model.RefCat
import Verif.Thm.Angles
import Verif.Thm.Catalog
import Verif.Thm.SRegion

/-!
# C115-C117: reference catalogues
-/

namespace Verif.Thm

open Verif.RefCat
open Verif.Angles
open Verif.Aberration (Vec dot)
open Verif.SRegion (natChars strip isWs digitsVal)

/-! ## C115: the search radius covers the footprint -/

theorem rc_unit_dot (a b c d : ℝ) :
    dot (anUnit a b) (anUnit c d) = Real.sin (b * Real.pi / 180) * Real.sin (d * Real.pi / 180) +
      Real.cos (b * Real.pi / 180) * Real.cos (d * Real.pi / 180) * Real.cos (a * Real.pi / 180 - c * Real.pi / 180) := by
  rw [Real.cos_sub]
  simp only [dot, anUnit]
  ring

theorem rc_unit_norm (a b : ℝ) : dot (anUnit a b) (anUnit a b) = 1 := by
  rw [rc_unit_dot, sub_self, Real.cos_zero, mul_one, ← Real.sin_sq_add_cos_sq (b * Real.pi / 180)]
  ring

theorem rc_cauchy (u v : Vec) : dot u v ^ 2 ≤ dot u u * dot v v := by
  simp only [dot]
  nlinarith [sq_nonneg (u.x * v.y - u.y * v.x), sq_nonneg (u.x * v.z - u.z * v.x), sq_nonneg (u.y * v.z - u.z * v.y)]

theorem rc_dot_range (a b c d : ℝ) : -1 ≤ dot (anUnit a b) (anUnit c d) ∧ dot (anUnit a b) (anUnit c d) ≤ 1 := by
  have h := rc_cauchy (anUnit a b) (anUnit c d)
  rw [rc_unit_norm, rc_unit_norm, mul_one] at h
  exact abs_le.1 ((sq_le_one_iff_abs_le_one _).1 h)

theorem rc_kept (ra dec ra0 dec0 radius : ℝ) :
    Verif.Catalog.Kept ra dec ra0 dec0 radius ↔
      Real.cos (radius * Real.pi / 180) ≤ dot (anUnit ra0 dec0) (anUnit ra dec) := by
  have hr := rc_dot_range ra0 dec0 ra dec
  have e : ∀ x : ℝ, Verif.Catalog.radians x = x * Real.pi / 180 := fun x => by simp only [Verif.Catalog.radians]; ring
  have h : dot (anUnit ra0 dec0) (anUnit ra dec) = dot (anUnit ra dec) (anUnit ra0 dec0) := by simp only [dot]; ring
  rw [h] at hr ⊢
  rw [rc_unit_dot] at hr ⊢
  simp only [Verif.Catalog.Kept, e]
  rw [min_eq_left hr.2, max_eq_right hr.1]

/-- The sum of vectors with weights. -/
def rcSum : List (ℝ × Vec) → Vec
  | [] => ⟨0, 0, 0⟩
  | (k, v) :: l => ⟨k * v.x + (rcSum l).x, k * v.y + (rcSum l).y, k * v.z + (rcSum l).z⟩

theorem rc_sum_dot (l : List (ℝ × Vec)) (c : Vec) : dot c (rcSum l) = (l.map fun p => p.1 * dot c p.2).sum := by
  induction l with
  | nil => simp [rcSum, dot]
  | cons p l ih =>
    rw [List.map_cons, List.sum_cons, ← ih]
    simp only [rcSum, dot]
    ring

theorem rc_radius (junk : (ℝ × ℝ) × ℝ) (foot : List (ℝ × ℝ)) (hne : foot ≠ []) :
    ∃ r f, computeRadius junk foot = some (r, f) ∧ (0 ≤ r ∧ r ≤ 180) ∧
      (∀ v ∈ foot, Real.cos (r * Real.pi / 180) ≤ dot (anUnit f.1 f.2) (anUnit v.1 v.2)) ∧
      (∃ v ∈ foot, Real.cos (r * Real.pi / 180) = dot (anUnit f.1 f.2) (anUnit v.1 v.2)) ∧
      ∃ w, computeFiducial junk foot [] = some (f, w) := by
  have hpi := Real.pi_pos
  obtain ⟨⟨f, w⟩, hf⟩ : ∃ f, computeFiducial junk foot [] = some f := by
    obtain ⟨c, _, hc⟩ := an_fiducial foot hne
    simp only [computeFiducial, hc]
    split
    · exact ⟨_, rfl⟩
    · exact ⟨_, rfl⟩
  obtain ⟨r, hr⟩ : ∃ r, (foot.map (separation f)).max? = some r := by
    cases h : (foot.map (separation f)).max? with
    | none => rw [List.max?_eq_none_iff, List.map_eq_nil_iff] at h; exact absurd h hne
    | some r => exact ⟨r, rfl⟩
  obtain ⟨hm, hle⟩ := List.max?_eq_some_iff.1 hr
  obtain ⟨v, hv, rfl⟩ := List.mem_map.1 hm
  have hsep : ∀ q : ℝ × ℝ, separation f q * Real.pi / 180 = Real.arccos (dot (anUnit f.1 f.2) (anUnit q.1 q.2)) := by
    intro q
    rw [separation, an_deg_rad, an_toVec, an_toVec]
  have hcos : ∀ q : ℝ × ℝ, Real.cos (separation f q * Real.pi / 180) = dot (anUnit f.1 f.2) (anUnit q.1 q.2) := by
    intro q
    rw [hsep]
    exact Real.cos_arccos (rc_dot_range _ _ _ _).1 (rc_dot_range _ _ _ _).2
  have hrange : ∀ q : ℝ × ℝ, 0 ≤ separation f q ∧ separation f q ≤ 180 := by
    intro q
    have h1 := Real.arccos_nonneg (dot (anUnit f.1 f.2) (anUnit q.1 q.2))
    have h2 := Real.arccos_le_pi (dot (anUnit f.1 f.2) (anUnit q.1 q.2))
    rw [← hsep] at h1 h2
    constructor
    · by_contra h
      push Not at h
      nlinarith
    · by_contra h
      push Not at h
      nlinarith
  refine ⟨_, f, by simp only [computeRadius, hf, hr, Option.map_some], hrange v, ?_, ⟨v, hv, hcos v⟩, w, hf⟩
  intro q hq
  rw [← hcos q]
  have h1 : separation f q ≤ separation f v := hle _ (List.mem_map_of_mem hq)
  apply Real.cos_le_cos_of_nonneg_of_le_pi
  · have := (hrange q).1; positivity
  · have := (hrange v).2; nlinarith
  · nlinarith

/-- C115 (radius).  The radius is an angle in [0, 180]; all vertices are at most so far from the fiducial point and one is exactly so far. -/
theorem C115_radius (junk : (ℝ × ℝ) × ℝ) (foot : List (ℝ × ℝ)) (hne : foot ≠ []) :
    ∃ r f, computeRadius junk foot = some (r, f) ∧ (0 ≤ r ∧ r ≤ 180) ∧
      IsLeast {t | (0 ≤ t ∧ t ≤ 180) ∧ ∀ v ∈ foot, Real.cos (t * Real.pi / 180) ≤ dot (anUnit f.1 f.2) (anUnit v.1 v.2)} r := by
  have hpi := Real.pi_pos
  obtain ⟨r, f, h1, h2, h3, ⟨v, hv, h4⟩, _⟩ := rc_radius junk foot hne
  refine ⟨r, f, h1, h2, ⟨h2, h3⟩, ?_⟩
  rintro t ⟨ht, hall⟩
  have := hall v hv
  rw [← h4] at this
  by_contra hlt
  push Not at hlt
  have := Real.cos_lt_cos_of_nonneg_of_le_pi (x := t * Real.pi / 180) (y := r * Real.pi / 180) (by have := ht.1; positivity)
    (by nlinarith) (by nlinarith)
  linarith

/-- C115 (cover).  If the radius is at most 90 degrees, every source whose direction lies within the footprint, that is, is a combination of the
directions of its vertices with weights that are not negative, is kept by the search with that radius around the fiducial point. -/
theorem C115_cover (junk : (ℝ × ℝ) × ℝ) (foot : List (ℝ × ℝ)) (r : ℝ) (f : ℝ × ℝ)
    (h : computeRadius junk foot = some (r, f)) (hr : r ≤ 90) (ra dec : ℝ) (k : List (ℝ × (ℝ × ℝ)))
    (hk : ∀ p ∈ k, 0 ≤ p.1 ∧ p.2 ∈ foot) (hin : anUnit ra dec = rcSum (k.map fun p => (p.1, anUnit p.2.1 p.2.2))) :
    Verif.Catalog.Kept ra dec f.1 f.2 r := by
  have hpi := Real.pi_pos
  have hne : foot ≠ [] := by
    rintro rfl
    simp only [computeRadius] at h
    split at h
    · simp at h
    · simp at h
  obtain ⟨r', f', h1, h2, h3, _⟩ := rc_radius junk foot hne
  rw [h1, Option.some.injEq, Prod.mk.injEq] at h
  obtain ⟨rfl, rfl⟩ := h
  rw [rc_kept, hin, rc_sum_dot, List.map_map]
  have hcos : 0 ≤ Real.cos (r' * Real.pi / 180) := Real.cos_nonneg_of_neg_pi_div_two_le_of_le (by nlinarith [h2.1]) (by nlinarith)
  have hge : (k.map fun p => p.1).sum * Real.cos (r' * Real.pi / 180) ≤
      (k.map ((fun p : ℝ × Vec => p.1 * dot (anUnit f'.1 f'.2) p.2) ∘ fun p => (p.1, anUnit p.2.1 p.2.2))).sum := by
    clear hin
    induction k with
    | nil => simp
    | cons p k ih =>
      have ih := ih fun q hq => hk q (by simp [hq])
      have hp := hk p (by simp)
      have := mul_le_mul_of_nonneg_left (h3 p.2 hp.2) hp.1
      simp only [List.map_cons, List.sum_cons, Function.comp_apply, add_mul] at ih ⊢
      linarith
  have hone : 1 ≤ (k.map fun p => p.1).sum := by
    have e : dot (anUnit ra dec) (anUnit ra dec) = 1 := rc_unit_norm ra dec
    rw [hin, rc_sum_dot, ← hin, List.map_map] at e
    rw [← e]
    clear hin hge e
    induction k with
    | nil => simp
    | cons p k ih =>
      have ih := ih fun q hq => hk q (by simp [hq])
      have hp := hk p (by simp)
      have := mul_le_mul_of_nonneg_left (rc_dot_range ra dec p.2.1 p.2.2).2 hp.1
      simp only [List.map_cons, List.sum_cons, Function.comp_apply, mul_one] at ih this ⊢
      linarith
  nlinarith

/-- C115 (end to end).  For a catalogue whose partitions do not enclose each other and whose files hold the rows of their cell, and a cone search
that returns every cell with a row within the radius, every row of the catalogue within the footprint is returned if no epoch is
given. -/
theorem C115_found {ρ : Type} (junk : (ℝ × ℝ) × ℝ) (foot : List (ℝ × ℝ)) (r : ℝ) (f : ℝ × ℝ)
    (h : computeRadius junk foot = some (r, f)) (hr : r ≤ 90) (parts : List (Nat × Nat)) (hnd : parts.Nodup) (hd : CtDisjoint parts)
    (earth : ℝ → Vec) (cone : Nat → List Nat) (file : Nat × Nat → List (Src ρ)) (index : Src ρ → Nat) (D : Nat)
    (hD : ∀ p ∈ parts, p.1 ≤ D) (hex : ∃ p ∈ parts, p.1 = D) (h29 : D ≤ 29)
    (hfile : ∀ p ∈ parts, ∀ s ∈ file p, CtEncloses p 29 (index s))
    (hcone : ∀ p ∈ parts, ∀ s ∈ file p, Verif.Catalog.Kept s.ra s.dec f.1 f.2 r → index s / 4 ^ (29 - D) ∈ cone D) :
    ∃ t, s3Catalog earth parts cone file index f r none = some t ∧
      (∀ p ∈ parts, ∀ s ∈ file p, ∀ k : List (ℝ × (ℝ × ℝ)), (∀ q ∈ k, 0 ≤ q.1 ∧ q.2 ∈ foot) →
        anUnit s.ra s.dec = rcSum (k.map fun q => (q.1, anUnit q.2.1 q.2.2)) → s ∈ t) ∧
      ∀ s ∈ t, (∃ p ∈ parts, s ∈ file p) ∧ Real.cos (r * Real.pi / 180) ≤ dot (anUnit f.1 f.2) (anUnit s.ra s.dec) := by
  obtain ⟨rows, h1, h2⟩ := C59_complete parts hnd hd cone file index D hD hex h29 hfile
  refine ⟨filterTable f r rows, by simp [s3Catalog, hatsSources, h1], ?_, ?_⟩
  · intro p hp s hs k hk hin
    have hkept := C115_cover junk foot r f h hr s.ra s.dec k hk hin
    simp only [filterTable, List.mem_filter, decide_eq_true_eq]
    refine ⟨?_, hkept⟩
    rw [h2.mem_iff, List.mem_filter, List.mem_flatMap]
    exact ⟨⟨p, hp, hs⟩, by simpa using hcone p hp s hs hkept⟩
  · intro s hs
    simp only [filterTable, List.mem_filter, decide_eq_true_eq] at hs
    rw [h2.mem_iff, List.mem_filter, List.mem_flatMap] at hs
    exact ⟨hs.1.1, (rc_kept _ _ _ _ _).1 hs.2⟩

/-! ## C116: proper motion and parallax -/

/-- Addition of vectors with weights. -/
def rcMove (u : Vec) (a : ℝ) (e : Vec) (b : ℝ) (n : Vec) : Vec :=
  ⟨u.x + a * e.x + b * n.x, u.y + a * e.y + b * n.y, u.z + a * e.z + b * n.z⟩

/-- The direction east of a position. -/
noncomputable def rcEast (lon : ℝ) : Vec := anUnit (lon + 90) 0

/-- The direction north of a position. -/
noncomputable def rcNorth (lon lat : ℝ) : Vec := anUnit lon (lat + 90)

/-- A milliarcsecond in radians. -/
noncomputable def rcMas : ℝ := Real.pi / 180 / 3600 / 1000

theorem rc_east (p : ℝ × ℝ) : raHat p = rcEast p.1 := by
  have e : (p.1 + 90) * Real.pi / 180 = p.1 * Real.pi / 180 + Real.pi / 2 := by ring
  have e2 : rad p.1 = p.1 * Real.pi / 180 := by simp only [rad]; ring
  simp only [raHat, rcEast, anUnit, e, e2, Real.cos_add_pi_div_two, Real.sin_add_pi_div_two]
  simp

theorem rc_north (p : ℝ × ℝ) : decHat p = rcNorth p.1 p.2 := by
  have e : (p.2 + 90) * Real.pi / 180 = p.2 * Real.pi / 180 + Real.pi / 2 := by ring
  have e1 : rad p.1 = p.1 * Real.pi / 180 := by simp only [rad]; ring
  have e2 : rad p.2 = p.2 * Real.pi / 180 := by simp only [rad]; ring
  simp only [decHat, rcNorth, anUnit, e, e1, e2, Real.cos_add_pi_div_two, Real.sin_add_pi_div_two]

theorem rc_mas : radPerMas = rcMas := by
  simp only [radPerMas, rcMas]
  rw [div_div, div_div, mul_assoc]

/-- Direction, east and north are perpendicular unit vectors. -/
theorem rc_frame (lon lat : ℝ) :
    dot (rcEast lon) (rcEast lon) = 1 ∧ dot (rcNorth lon lat) (rcNorth lon lat) = 1 ∧ dot (anUnit lon lat) (rcEast lon) = 0 ∧
    dot (anUnit lon lat) (rcNorth lon lat) = 0 ∧ dot (rcEast lon) (rcNorth lon lat) = 0 := by
  refine ⟨rc_unit_norm _ _, rc_unit_norm _ _, ?_, ?_, ?_⟩
  · rw [rcEast, rc_unit_dot]
    have e : lon * Real.pi / 180 - (lon + 90) * Real.pi / 180 = -(Real.pi / 2) := by ring
    rw [e]; simp
  · rw [rcNorth, rc_unit_dot]
    have e : (lat + 90) * Real.pi / 180 = lat * Real.pi / 180 + Real.pi / 2 := by ring
    rw [e, sub_self, Real.cos_zero, Real.sin_add_pi_div_two, Real.cos_add_pi_div_two]; ring
  · rw [rcNorth, rcEast, rc_unit_dot]
    have e : (lon + 90) * Real.pi / 180 - lon * Real.pi / 180 = Real.pi / 2 := by ring
    rw [e]; simp

theorem rc_newVec (earth : Vec) (dt : ℝ) (p : ℝ × ℝ) (a b c : ℝ) :
    newVec earth dt p a b c = rcMove (anUnit p.1 p.2) (rcMas * (dt * a - c * dot earth (rcEast p.1))) (rcEast p.1)
      (rcMas * (dt * b - c * dot earth (rcNorth p.1 p.2))) (rcNorth p.1 p.2) := by
  apply an_ext <;> simp only [newVec, rcMove, rc_east, rc_north, rc_mas, an_toVec] <;> ring

theorem rc_move_sq (u e n : Vec) (a b : ℝ) (hu : dot u u = 1) (he : dot e e = 1) (hn : dot n n = 1) (hue : dot u e = 0)
    (hun : dot u n = 0) (hen : dot e n = 0) :
    (rcMove u a e b n).x ^ 2 + (rcMove u a e b n).y ^ 2 + (rcMove u a e b n).z ^ 2 = 1 + a ^ 2 + b ^ 2 := by
  simp only [dot] at *
  simp only [rcMove]
  linear_combination hu + a ^ 2 * he + b ^ 2 * hn + 2 * a * hue + 2 * b * hun + 2 * a * b * hen

/-- C116 (position).  The corrected position is that of the old direction plus `a` towards east and `b` towards north, with `a` and `b` the proper motion
in the interval (in milliarcseconds on the sky, not divided by the cosine of the declination) less the parallax times the position of the
Earth along that direction. -/
theorem C116_position {ρ : Type} (earth : ℝ → Vec) (epoch : ℝ) (s : Src ρ) (pa pd plx : ℝ) (h1 : s.pmra = some pa)
    (h2 : s.pmdec = some pd) (h3 : s.parallax = some plx) :
    let a := rcMas * ((epoch - s.refEpoch) * pa - plx * dot (earth epoch) (rcEast s.ra))
    let b := rcMas * ((epoch - s.refEpoch) * pd - plx * dot (earth epoch) (rcNorth s.ra s.dec))
    ∃ s', moveStar earth epoch s = some s' ∧ s' = { s with ra := s'.ra, dec := s'.dec } ∧
      (0 ≤ s'.ra ∧ s'.ra < 360) ∧ (-90 ≤ s'.dec ∧ s'.dec ≤ 90) ∧
      rcMove (anUnit s.ra s.dec) a (rcEast s.ra) b (rcNorth s.ra s.dec) =
        anScale (Real.sqrt (1 + a ^ 2 + b ^ 2)) (anUnit s'.ra s'.dec) ∧
      dot (anUnit s.ra s.dec) (anUnit s'.ra s'.dec) = 1 / Real.sqrt (1 + a ^ 2 + b ^ 2) := by
  intro a b
  obtain ⟨f1, f2, f3, f4, f5⟩ := rc_frame s.ra s.dec
  have hsq := rc_move_sq (anUnit s.ra s.dec) (rcEast s.ra) (rcNorth s.ra s.dec) a b (rc_unit_norm _ _) f1 f2 f3 f4 f5
  have hv := rc_newVec (earth epoch) (epoch - s.refEpoch) (s.ra, s.dec) pa pd plx
  obtain ⟨r1, r2, r3⟩ := an_angles (rcMove (anUnit s.ra s.dec) a (rcEast s.ra) b (rcNorth s.ra s.dec))
  rw [hsq] at r3
  have hm : moveStar earth epoch s = some { s with
      ra := (toAngles (rcMove (anUnit s.ra s.dec) a (rcEast s.ra) b (rcNorth s.ra s.dec))).1,
      dec := (toAngles (rcMove (anUnit s.ra s.dec) a (rcEast s.ra) b (rcNorth s.ra s.dec))).2 } := by
    simp only [moveStar, h1, h2, h3, hv, a, b]
  refine ⟨_, hm, rfl, r1, r2, r3, ?_⟩
  · have hpos : 0 < Real.sqrt (1 + a ^ 2 + b ^ 2) := Real.sqrt_pos.2 (by positivity)
    have hd : dot (anUnit s.ra s.dec) (rcMove (anUnit s.ra s.dec) a (rcEast s.ra) b (rcNorth s.ra s.dec)) = 1 := by
      have h0 := rc_unit_norm s.ra s.dec
      simp only [dot] at h0 f3 f4 ⊢
      simp only [rcMove]
      linear_combination h0 + a * f3 + b * f4
    rw [r3] at hd
    have hsc : ∀ (u w : Vec) (k : ℝ), dot u (anScale k w) = dot u w * k := by
      intro u w k
      simp only [dot, anScale]
      ring
    rw [hsc] at hd
    rw [eq_div_iff hpos.ne']
    exact hd

/-- C116 (parallax).  Without proper motion the direction is displaced by the parallax times the part of the position of the Earth across the line of sight,
away from the Earth. -/
theorem C116_parallax {ρ : Type} (earth : ℝ → Vec) (epoch : ℝ) (s : Src ρ) (plx : ℝ) (h1 : s.pmra = some 0)
    (h2 : s.pmdec = some 0) (h3 : s.parallax = some plx) :
    let u := anUnit s.ra s.dec
    let k := rcMas * plx
    ∃ s' r, moveStar earth epoch s = some s' ∧ 0 < r ∧
      anScale r (anUnit s'.ra s'.dec) = rcMove u (-k) (earth epoch) (k * dot (earth epoch) u) u := by
  intro u k
  obtain ⟨s', e1, _, _, _, e2, _⟩ := C116_position earth epoch s 0 0 plx h1 h2 h3
  refine ⟨s', Real.sqrt (1 + (rcMas * ((epoch - s.refEpoch) * 0 - plx * dot (earth epoch) (rcEast s.ra))) ^ 2 +
    (rcMas * ((epoch - s.refEpoch) * 0 - plx * dot (earth epoch) (rcNorth s.ra s.dec))) ^ 2), e1, Real.sqrt_pos.2 (by positivity), ?_⟩
  · rw [← e2]
    -- the Earth in the frame of the star
    have hdec : earth epoch = rcMove (anScale (dot (earth epoch) u) u) (dot (earth epoch) (rcEast s.ra)) (rcEast s.ra)
        (dot (earth epoch) (rcNorth s.ra s.dec)) (rcNorth s.ra s.dec) := by
      have c1 := Real.sin_sq_add_cos_sq (s.ra * Real.pi / 180)
      have c2 := Real.sin_sq_add_cos_sq (s.dec * Real.pi / 180)
      have g1 : (s.ra + 90) * Real.pi / 180 = s.ra * Real.pi / 180 + Real.pi / 2 := by ring
      have g2 : (s.dec + 90) * Real.pi / 180 = s.dec * Real.pi / 180 + Real.pi / 2 := by ring
      simp only [u, dot, rcEast, rcNorth, anUnit, g1, g2, Real.cos_add_pi_div_two, Real.sin_add_pi_div_two, zero_mul, zero_div,
        Real.cos_zero, Real.sin_zero, one_mul]
      generalize Real.sin (s.ra * Real.pi / 180) = sa at *
      generalize Real.cos (s.ra * Real.pi / 180) = ca at *
      generalize Real.sin (s.dec * Real.pi / 180) = sd at *
      generalize Real.cos (s.dec * Real.pi / 180) = cd at *
      apply an_ext <;> simp only [rcMove, anScale]
      · linear_combination (-(earth epoch).x * ca ^ 2 - (earth epoch).y * sa * ca) * c2 - (earth epoch).x * c1
      · linear_combination (-(earth epoch).x * ca * sa - (earth epoch).y * sa ^ 2) * c2 - (earth epoch).y * c1
      · linear_combination (-(earth epoch).z) * c2
    have hx := congrArg Vec.x hdec
    have hy := congrArg Vec.y hdec
    have hz := congrArg Vec.z hdec
    simp only [rcMove, anScale] at hx hy hz
    apply an_ext <;> simp only [rcMove, k, u] at *
    · linear_combination (rcMas * plx) * hx
    · linear_combination (rcMas * plx) * hy
    · linear_combination (rcMas * plx) * hz

/-- C116 (still).  A star without proper motion in the interval and without parallax, away from the poles, keeps its position. -/
theorem C116_still {ρ : Type} (earth : ℝ → Vec) (epoch : ℝ) (s : Src ρ) (pa pd : ℝ) (h1 : s.pmra = some pa)
    (h2 : s.pmdec = some pd) (h3 : s.parallax = some 0) (hdt : epoch = s.refEpoch ∨ pa = 0 ∧ pd = 0)
    (hra : 0 ≤ s.ra ∧ s.ra < 360) (hdec : -90 < s.dec ∧ s.dec < 90) :
    moveStar earth epoch s = some s := by
  have hz : (epoch - s.refEpoch) * pa = 0 ∧ (epoch - s.refEpoch) * pd = 0 := by
    rcases hdt with h | ⟨rfl, rfl⟩
    · simp [h]
    · simp
  have hv : newVec (earth epoch) (epoch - s.refEpoch) (s.ra, s.dec) pa pd 0 = anScale 1 (anUnit s.ra s.dec) := by
    rw [rc_newVec]
    apply an_ext <;> simp [rcMove, anScale, hz.1, hz.2]
  have hm : mod360 s.ra = s.ra := by
    obtain ⟨m1, m2, m3⟩ := an_mod s.ra
    exact an_mod_unique _ _ ⟨m1, m2⟩ hra m3
  obtain ⟨ra, dec, e, o1, o2, o3, o4⟩ := s
  simp only at h1 h2 h3 hv hm hdec
  subst h1 h2 h3
  simp only [moveStar, hv, an_angles_unit 1 ra dec one_pos hdec, hm]

/-- C116 (rows).  The corrected table has exactly the rows with measured proper motion and parallax, in their order, with nothing but the position
changed; in particular the column of the epoch still holds that of the catalogue. -/
theorem C116_rows {ρ : Type} (earth : ℝ → Vec) (epoch : ℝ) (t : List (Src ρ)) :
    ∃ kept : List (Src ρ), kept.Sublist t ∧
      (∀ s ∈ kept, s.pmra ≠ none ∧ s.pmdec ≠ none ∧ s.parallax ≠ none) ∧
      (kept.length = t.countP fun s => s.pmra.isSome && s.pmdec.isSome && s.parallax.isSome) ∧
      List.Forall₂ (fun s s' => moveStar earth epoch s = some s' ∧ s'.rest = s.rest ∧ s'.refEpoch = s.refEpoch ∧
        s'.pmra = s.pmra ∧ s'.pmdec = s.pmdec ∧ s'.parallax = s.parallax) kept (correct earth epoch t) := by
  induction t with
  | nil => exact ⟨[], by simp, by simp, by simp, .nil⟩
  | cons s t ih =>
    obtain ⟨kept, h1, h2, h3, h4⟩ := ih
    rcases e1 : s.pmra with _ | a
    · refine ⟨kept, h1.cons s, h2, by simp [h3, e1], ?_⟩
      rw [correct, List.filterMap_cons_none (by simp only [moveStar, e1])]
      exact h4
    · rcases e2 : s.pmdec with _ | b
      · refine ⟨kept, h1.cons s, h2, by simp [h3, e2], ?_⟩
        rw [correct, List.filterMap_cons_none (by simp only [moveStar, e1, e2])]
        exact h4
      · rcases e3 : s.parallax with _ | c
        · refine ⟨kept, h1.cons s, h2, by simp [h3, e3], ?_⟩
          rw [correct, List.filterMap_cons_none (by simp only [moveStar, e1, e2, e3])]
          exact h4
        · obtain ⟨s', hs'⟩ : ∃ s', moveStar earth epoch s = some s' := by
            simp only [moveStar, e1, e2, e3]
            exact ⟨_, rfl⟩
          refine ⟨s :: kept, h1.cons_cons s, ?_, ?_, ?_⟩
          · intro x hx
            rcases List.mem_cons.1 hx with rfl | hx
            · simp [e1, e2, e3]
            · exact h2 x hx
          · simp [h3, e1, e2, e3]
          · rw [correct, List.filterMap_cons_some hs']
            refine .cons ⟨hs', ?_⟩ h4
            simp only [moveStar, e1, e2, e3, Option.some.injEq] at hs'
            subst hs'
            simp [e1, e2, e3]

/-- C116 (catalogue).  With an epoch other than zero the catalogue is the corrected result of the search; without one, or with epoch zero, it is the
result of the search. -/
theorem C116_catalog {ρ : Type} (earth : ℝ → Vec) (parts : List (Nat × Nat)) (cone : Nat → List Nat)
    (file : Nat × Nat → List (Src ρ)) (index : Src ρ → Nat) (c : ℝ × ℝ) (radius : ℝ) :
    s3Catalog earth parts cone file index c radius none = hatsSources parts cone file index c radius ∧
    s3Catalog earth parts cone file index c radius (some 0) = hatsSources parts cone file index c radius ∧
    ∀ e, e ≠ 0 → s3Catalog earth parts cone file index c radius (some e) =
      (hatsSources parts cone file index c radius).map (correct earth e) := by
  cases h : hatsSources parts cone file index c radius with
  | none => simp [s3Catalog, h]
  | some t =>
    refine ⟨by simp [s3Catalog, h], by simp [s3Catalog, h], ?_⟩
    intro e he
    simp [s3Catalog, h, he]

/-- C116 (finding).  The search uses the positions before the correction: a star that at the epoch is in the centre of the field, and in the catalogue just outside,
is not returned. -/
theorem C116_searched_before_moving :
    ∃ s s' : Src Unit, moveStar (fun _ => ⟨0, 0, 0⟩) 2020 s = some s' ∧ s'.ra = 0 ∧ s'.dec = 0 ∧
      (∀ index, s3Catalog (fun _ => ⟨0, 0, 0⟩) [(0, 0)] (fun _ => [0]) (fun _ => [s]) index (0, 0) (1 / 2) (some 2020) = some []) := by
  have hpi := Real.pi_pos
  set a := (1 : ℝ) * Real.pi / 180 with ha
  have hc : 0 < Real.cos a := Real.cos_pos_of_mem_Ioo ⟨by rw [ha]; linarith, by rw [ha]; linarith⟩
  have hmas : rcMas ≠ 0 := by simp only [rcMas]; positivity
  set s : Src Unit := ⟨1, 0, 2016, some (-(Real.tan a / rcMas / 4)), some 0, some 0, ()⟩ with hs
  have hv : newVec ⟨0, 0, 0⟩ (2020 - s.refEpoch) (s.ra, s.dec) (-(Real.tan a / rcMas / 4)) 0 0 = anScale (1 / Real.cos a) (anUnit 0 0) := by
    have h90 : ((1 : ℝ) + 90) * Real.pi / 180 = a + Real.pi / 2 := by rw [ha]; ring
    have hcs := Real.sin_sq_add_cos_sq a
    rw [rc_newVec]
    have ecoef : rcMas * ((2020 - 2016) * -(Real.tan a / rcMas / 4) - 0 * dot ⟨0, 0, 0⟩ (rcEast 1)) = -Real.tan a := by
      field_simp
      ring
    simp only [hs, ecoef]
    apply an_ext <;> simp only [rcMove, anScale, rcEast, rcNorth, anUnit, h90, ← ha, Real.cos_add_pi_div_two, Real.sin_add_pi_div_two,
      Real.tan_eq_sin_div_cos]
    · simp
      field_simp
      linear_combination hcs
    · simp
      field_simp
      ring
    · simp
  have hmv : moveStar (fun _ => ⟨0, 0, 0⟩) 2020 s = some { s with ra := 0, dec := 0 } := by
    have hq : toAngles (anScale (1 / Real.cos a) (anUnit 0 0)) = (0, 0) := by
      rw [an_angles_unit _ 0 0 (by positivity) (by norm_num)]
      simp [mod360]
    have e : moveStar (fun _ => ⟨0, 0, 0⟩) 2020 s = some { s with
        ra := (toAngles (newVec ⟨0, 0, 0⟩ (2020 - s.refEpoch) (s.ra, s.dec) (-(Real.tan a / rcMas / 4)) 0 0)).1,
        dec := (toAngles (newVec ⟨0, 0, 0⟩ (2020 - s.refEpoch) (s.ra, s.dec) (-(Real.tan a / rcMas / 4)) 0 0)).2 } := rfl
    rw [e, hv, hq]
  refine ⟨s, _, hmv, rfl, rfl, ?_⟩
  intro index
  have hnot : ¬ Verif.Catalog.Kept s.ra s.dec 0 0 (1 / 2) := by
    rw [rc_kept, rc_unit_dot]
    have h1 : Real.cos (1 * Real.pi / 180) < Real.cos (1 / 2 * Real.pi / 180) :=
      Real.cos_lt_cos_of_nonneg_of_le_pi (by positivity) (by linarith) (by linarith)
    simp only [hs, zero_mul, zero_div, zero_sub, Real.cos_neg, Real.cos_zero, Real.sin_zero, mul_zero, zero_add, one_mul, mul_one]
    rw [one_mul] at h1
    exact not_le.2 h1
  have hf : ∀ l : List (Src Unit), (∀ x ∈ l, x = s) → filterTable (0, 0) (1 / 2) l = [] := by
    intro l hl
    simp only [filterTable, List.filter_eq_nil_iff, decide_eq_true_eq]
    intro x hx
    rw [hl x hx]
    exact hnot
  obtain ⟨rows, hrows, hall⟩ : ∃ rows, Verif.Catalog.readRows [(0, 0)] (fun _ => [0]) (fun _ => [s]) index = some rows ∧ ∀ x ∈ rows, x = s := by
    refine ⟨_, rfl, ?_⟩
    intro x hx
    have := (List.mem_filter.1 hx).1
    rw [List.mem_flatMap] at this
    obtain ⟨_, _, h⟩ := this
    simpa using h
  rw [(C116_catalog _ _ _ _ _ _ _).2.2 2020 (by norm_num), hatsSources, hrows, Option.map_some, Option.map_some, hf rows hall]
  rfl

/-! ## C117: names and paths -/

theorem rc_split (c : Char) (hc : ¬ SrDigit c) (a b r s : List Char) (ha : ∀ x ∈ a, SrDigit x) (hb : ∀ x ∈ b, SrDigit x)
    (h : a ++ c :: r = b ++ c :: s) : a = b ∧ r = s := by
  induction a generalizing b with
  | nil =>
    rcases b with _ | ⟨y, b⟩
    · simpa using h
    · simp only [List.nil_append, List.cons_append, List.cons.injEq] at h
      exact absurd (h.1 ▸ hb y (by simp)) hc
  | cons x a ih =>
    rcases b with _ | ⟨y, b⟩
    · simp only [List.nil_append, List.cons_append, List.cons.injEq] at h
      exact absurd (h.1 ▸ ha x (by simp)) hc
    · simp only [List.cons_append, List.cons.injEq] at h
      obtain ⟨h1, h2⟩ := ih b (fun z hz => ha z (by simp [hz])) (fun z hz => hb z (by simp [hz])) h.2
      exact ⟨by rw [h.1, h1], h2⟩

theorem rc_nat_inj (m n : Nat) (h : natChars m = natChars n) : m = n := by
  have := sr_digitsVal_nat m
  rw [h, sr_digitsVal_nat] at this
  exact (Option.some.inj this).symm

/-- C117 (paths).  There is one path per partition, in order, and different partitions have different paths. -/
theorem C117_paths (fl : ℚ → ℚ) (pixels : List (Nat × Nat)) (fsPath : List Char) :
    (paths fl pixels fsPath).length = pixels.length ∧
    ∀ (i j : Nat) (p q : Nat × Nat), pixels[i]? = some p → pixels[j]? = some q →
      ((paths fl pixels fsPath)[i]? = (paths fl pixels fsPath)[j]? ↔ p = q) := by
  refine ⟨by simp [paths], ?_⟩
  intro i j p q hp hq
  have hs : ¬ SrDigit '/' := by simp only [SrDigit]; decide
  simp only [paths, List.getElem?_map, hp, hq, Option.map_some, Option.some.injEq]
  constructor
  · intro h
    simp only [List.append_assoc] at h
    have h := List.append_cancel_left (List.append_cancel_left h)
    obtain ⟨h1, h⟩ := rc_split '/' hs _ _ ("Dir=".toList ++ (natChars (directory fl p.2) ++ ("/Npix=".toList ++ (natChars p.2 ++ ".parquet".toList))))
      ("Dir=".toList ++ (natChars (directory fl q.2) ++ ("/Npix=".toList ++ (natChars q.2 ++ ".parquet".toList))))
      (sr_natChars_ok p.1) (sr_natChars_ok q.1) h
    have h := List.append_cancel_left h
    obtain ⟨_, h⟩ := rc_split '/' hs _ _ ("Npix=".toList ++ (natChars p.2 ++ ".parquet".toList)) ("Npix=".toList ++ (natChars q.2 ++ ".parquet".toList))
      (sr_natChars_ok (directory fl p.2)) (sr_natChars_ok (directory fl q.2)) h
    have h := List.append_cancel_left h
    have h := List.append_cancel_right h
    exact Prod.ext (rc_nat_inj _ _ h1) (rc_nat_inj _ _ h)
  · rintro rfl
    rfl

/-- C117 (directory).  For every rounding that is monotone, keeps integers and has a relative error of at most one part in 2^53, the directory of
a partition with number below 10^15 is the greatest multiple of 10000 that is not above the number. -/
theorem C117_directory (fl : ℚ → ℚ) (hmono : ∀ x y, x ≤ y → fl x ≤ fl y) (hint : ∀ n : Nat, n < 2 ^ 53 → fl n = n)
    (herr : ∀ x, |fl x - x| ≤ |x| / 2 ^ 53) (n : Nat) (hn : n < 10 ^ 15) :
    10000 ∣ directory fl n ∧ directory fl n ≤ n ∧ n < directory fl n + 10000 := by
  have hd : n = 10000 * (n / 10000) + n % 10000 := (Nat.div_add_mod n 10000).symm
  have hm : n % 10000 < 10000 := Nat.mod_lt _ (by norm_num)
  set k := n / 10000 with hk
  set m := n % 10000 with hmm
  have hx : (n : ℚ) / 10000 = k + (m : ℚ) / 10000 := by
    have : (n : ℚ) = 10000 * k + m := by exact_mod_cast hd
    rw [this]; field_simp
  have hfloor : ⌊fl ((n : ℚ) / 10000)⌋ = (k : Int) := by
    rw [Int.floor_eq_iff]
    have hm0 : (0 : ℚ) ≤ m := by positivity
    have hm1 : (m : ℚ) + 1 ≤ 10000 := by exact_mod_cast hm
    have hk1 : k < 2 ^ 53 := by omega
    have hkq : (k : ℚ) ≤ 10 ^ 11 := by
      have : k ≤ 10 ^ 11 := by omega
      exact_mod_cast this
    constructor
    · have := hmono (k : ℚ) ((n : ℚ) / 10000) (by rw [hx]; linarith [div_nonneg hm0 (by norm_num : (0 : ℚ) ≤ 10000)])
      rw [hint k hk1] at this
      exact_mod_cast this
    · have h1 := (abs_le.1 (herr ((n : ℚ) / 10000))).2
      have hpos : (0 : ℚ) ≤ (n : ℚ) / 10000 := by positivity
      rw [abs_of_nonneg hpos] at h1
      have hm2 : (m : ℚ) / 10000 ≤ 9999 / 10000 := by
        apply div_le_div_of_nonneg_right _ (by norm_num)
        linarith
      have hbound : (n : ℚ) / 10000 / 2 ^ 53 < 1 / 10000 := by
        rw [hx, div_lt_iff₀ (by positivity)]
        have : (k : ℚ) + (m : ℚ) / 10000 ≤ 10 ^ 11 + 9999 / 10000 := by linarith
        exact lt_of_le_of_lt this (by norm_num)
      push_cast
      rw [hx] at h1 hbound
      rw [hx]
      linarith
  have he : directory fl n = k * 10000 := by
    simp only [directory, hfloor, Int.toNat_natCast]
  rw [he]
  exact ⟨Dvd.intro_left k rfl, by omega, by omega⟩

/-- C117 (rows of the web service).  With an epoch other than zero the rows without proper motion are left out, provided the columns have masks;
otherwise all rows are kept. -/
theorem C117_rows {ρ : Type} (t : List (Src ρ)) (hasMask : Bool × Bool)
    (hmask : ∀ s ∈ t, (s.pmra = none → hasMask.1 = true) ∧ (s.pmdec = none → hasMask.2 = true)) :
    voRows hasMask none t = t ∧ voRows hasMask (some 0) t = t ∧
    ∀ e, e ≠ 0 → (voRows hasMask (some e) t).Sublist t ∧
      ∀ s, s ∈ voRows hasMask (some e) t ↔ s ∈ t ∧ s.pmra ≠ none ∧ s.pmdec ≠ none := by
  refine ⟨rfl, by simp [voRows], ?_⟩
  intro e he
  by_cases ht : t = []
  · subst ht
    simp [voRows]
  · simp only [voRows, if_pos (And.intro he ht)]
    refine ⟨List.filter_sublist, ?_⟩
    intro s
    rw [List.mem_filter]
    constructor
    · rintro ⟨hs, h⟩
      obtain ⟨m1, m2⟩ := hmask s hs
      refine ⟨hs, ?_, ?_⟩
      · intro hn; simp [hn, m1 hn] at h
      · intro hn; simp [hn, m2 hn] at h
    · rintro ⟨hs, h1, h2⟩
      obtain ⟨a, ha⟩ := Option.ne_none_iff_exists'.1 h1
      obtain ⟨b, hb⟩ := Option.ne_none_iff_exists'.1 h2
      exact ⟨hs, by simp [ha, hb]⟩

/-- `s` is not white space at either end. -/
def RcTight (s : List Char) : Prop := (∀ c, s.head? = some c → isWs c = false) ∧ ∀ c, s.getLast? = some c → isWs c = false

theorem rc_strip (w s w' : List Char) (hw : ∀ c ∈ w, isWs c = true) (hw' : ∀ c ∈ w', isWs c = true) (hs : RcTight s) :
    strip (w ++ s ++ w') = s := by
  rw [strip, List.append_assoc, List.dropWhile_append_of_pos hw]
  rcases hd : s with _ | ⟨c, t⟩
  · have : w'.dropWhile isWs = [] := by
      rw [List.dropWhile_eq_nil_iff]; exact hw'
    simp [this]
  · rw [← hd]
    have h1 : (s ++ w').dropWhile isWs = s ++ w' := by
      rw [hd, List.cons_append, List.dropWhile_cons_of_neg]
      have := hs.1 c (by rw [hd]; rfl)
      simp [this]
    rw [h1]
    have h2 : (s ++ w').rdropWhile isWs = s.rdropWhile isWs := by
      rw [List.rdropWhile, List.rdropWhile, List.reverse_append, List.dropWhile_append_of_pos]
      intro c hc
      exact hw' c (List.mem_reverse.1 hc)
    rw [h2]
    apply List.rdropWhile_eq_self_iff.2
    intro hne
    have := hs.2 (s.getLast hne) (List.getLast?_eq_getLast_of_ne_nil hne)
    simp [this]

/-- Upper case as in Lean. -/
theorem rc_up (c : Char) : up c = c.toUpper := by
  rw [up]
  split
  · rename_i h
    obtain ⟨h1, h2⟩ := h
    have hc : c = Char.ofNat c.toNat := (Char.ofNat_toNat c).symm
    rw [hc]
    generalize c.toNat = n at h1 h2
    interval_cases n <;> rfl
  · rename_i h
    rw [Char.toUpper]
    split
    · rename_i h'
      exact absurd ⟨UInt32.le_iff_toNat_le.1 h'.1, UInt32.le_iff_toNat_le.1 h'.2⟩ h
    · rfl

/-- Lower case as in Lean. -/
theorem rc_low (c : Char) : low c = c.toLower := by
  rw [low]
  split
  · rename_i h
    obtain ⟨h1, h2⟩ := h
    have hc : c = Char.ofNat c.toNat := (Char.ofNat_toNat c).symm
    rw [hc]
    generalize c.toNat = n at h1 h2
    interval_cases n <;> rfl
  · rename_i h
    rw [Char.toLower]
    split
    · rename_i h'
      exact absurd ⟨UInt32.le_iff_toNat_le.1 h'.1, UInt32.le_iff_toNat_le.1 h'.2⟩ h
    · rfl

/-- C117 (choice).  White space around the name does not matter.  A name that is one of the known ones but for its case is a query of that catalogue,
even if there is a file with that name; otherwise it is a file if there is one, and an error if not. -/
theorem C117_choice (isFile : List Char → Bool) (w s w' : List Char) (hw : ∀ c ∈ w, isWs c = true) (hw' : ∀ c ∈ w', isWs c = true)
    (hs : RcTight s) (save : Bool) (dir : Option (List Char)) :
    (s.map Char.toUpper ∈ refcatNames → ∃ out, parseRefcat isFile (w ++ s ++ w') save dir = .query (s.map Char.toUpper) out ∧
      (save = false → out = none) ∧
      (save = true → out = some ((match dir with | none => [] | some d => d ++ ['/']) ++ "fit_".toList ++ s.map Char.toLower ++ "_ref.ecsv".toList))) ∧
    (s.map Char.toUpper ∉ refcatNames → isFile s = true → parseRefcat isFile (w ++ s ++ w') save dir = .file s) ∧
    (s.map Char.toUpper ∉ refcatNames → isFile s = false → parseRefcat isFile (w ++ s ++ w') save dir = .error) := by
  simp only [parseRefcat, rc_strip w s w' hw hw' hs, funext rc_up, funext rc_low]
  refine ⟨?_, ?_, ?_⟩
  · intro h
    rw [if_pos h]
    refine ⟨_, rfl, ?_, ?_⟩
    · rintro rfl; simp
    · rintro rfl
      cases dir <;> simp
  · intro h hf
    rw [if_neg h, if_pos hf]
  · intro h hf
    rw [if_neg h, hf]
    simp

/-! ## Examples -/

/-- A source in the middle of two vertices, as a combination of both. -/
example : ∃ k : List (ℝ × (ℝ × ℝ)), (∀ p ∈ k, 0 ≤ p.1 ∧ p.2 ∈ [((0 : ℝ), (0 : ℝ)), (60, 0)]) ∧
    anUnit 30 0 = rcSum (k.map fun p => (p.1, anUnit p.2.1 p.2.2)) := by
  have h3 : (0 : ℝ) < Real.sqrt 3 := by positivity
  have hs : Real.sqrt 3 ^ 2 = 3 := Real.sq_sqrt (by norm_num)
  refine ⟨[(1 / Real.sqrt 3, (0, 0)), (1 / Real.sqrt 3, (60, 0))], ?_, ?_⟩
  · intro p hp
    simp only [List.mem_cons, List.not_mem_nil, or_false] at hp
    rcases hp with rfl | rfl
    · exact ⟨by positivity, by simp⟩
    · exact ⟨by positivity, by simp⟩
  · have e1 : (30 : ℝ) * Real.pi / 180 = Real.pi / 6 := by ring
    have e2 : (60 : ℝ) * Real.pi / 180 = Real.pi / 3 := by ring
    apply an_ext
    · simp only [List.map_cons, List.map_nil, rcSum, anUnit, e1, e2, zero_mul, zero_div, Real.cos_zero, Real.cos_pi_div_six, Real.cos_pi_div_three]
      field_simp
      linarith
    · simp only [List.map_cons, List.map_nil, rcSum, anUnit, e1, e2, zero_mul, zero_div, Real.cos_zero, Real.sin_zero, Real.sin_pi_div_six,
        Real.sin_pi_div_three]
      field_simp
      linarith
    · simp [rcSum, anUnit]

/-- Hypotheses of `C115_cover`: the radius of these two vertices is below 90 degrees. -/
example (junk : (ℝ × ℝ) × ℝ) : ∃ r f, computeRadius junk [(0, 0), (60, 0)] = some (r, f) ∧ r ≤ 90 := by
  have hpi := Real.pi_pos
  obtain ⟨r, f, h1, h2, _, ⟨v, hv, h4⟩, w, h5⟩ := rc_radius junk [(0, 0), (60, 0)] (by simp)
  refine ⟨r, f, h1, ?_⟩
  obtain ⟨lon, lat, q, e1, e2, e3, _⟩ := C110_two_points (0, 0) (60, 0)
  have hf : f = (lon, lat) := by
    simp [computeFiducial, e1] at h5
    exact h5.1.symm
  subst hf
  have ex := e3 Vec.x (by simp)
  have ey := e3 Vec.y (by simp)
  have ez := e3 Vec.z (by simp)
  simp only [anScale] at ex ey ez
  have k1 : (60 : ℝ) * Real.pi / 180 = Real.pi / 3 := by ring
  have hd : 0 < q * dot (anUnit lon lat) (anUnit v.1 v.2) := by
    have e : q * dot (anUnit lon lat) (anUnit v.1 v.2) = q * (anUnit lon lat).x * (anUnit v.1 v.2).x +
        q * (anUnit lon lat).y * (anUnit v.1 v.2).y + q * (anUnit lon lat).z * (anUnit v.1 v.2).z := by
      simp only [dot]; ring
    rw [e, ← ex, ← ey, ← ez]
    simp only [List.mem_cons, List.not_mem_nil, or_false] at hv
    have hs : Real.sqrt 3 ^ 2 = 3 := Real.sq_sqrt (by norm_num)
    rcases hv with rfl | rfl
    · simp [anUnit, k1]; norm_num
    · simp [anUnit, k1]; nlinarith
  have hpos : 0 < Real.cos (r * Real.pi / 180) := by
    rw [h4]
    exact (pos_iff_pos_of_mul_pos hd).1 (lt_of_le_of_ne e2 (by rintro rfl; simp at hd))
  by_contra hlt
  push Not at hlt
  have := Real.cos_nonpos_of_pi_div_two_le_of_le (x := r * Real.pi / 180) (by nlinarith) (by nlinarith)
  linarith

/-- Hypotheses of `C117_directory`: exact quotients. -/
example : directory id 123456 = 120000 := by decide +kernel

/-- Hypotheses of `C117_choice`. -/
example : RcTight "gaiaDR3".toList ∧ "gaiaDR3".toList.map up ∈ refcatNames ∧
    parseRefcat (fun _ => true) " gaiaDR3 ".toList true none = .query "GAIADR3".toList (some "fit_gaiadr3_ref.ecsv".toList) := by
  refine ⟨⟨?_, ?_⟩, by decide +kernel, by decide +kernel⟩
  · intro c hc
    have : c = 'g' := by simpa using hc.symm
    subst this; decide
  · intro c hc
    have : c = '3' := by simpa using hc.symm
    subst this; decide

/-- Hypotheses of `C117_rows`: a row without proper motion among others. -/
example : ∀ s ∈ ([⟨0, 0, 2016, none, some 1, some 1, ()⟩, ⟨0, 0, 2016, some 1, some 1, none, ()⟩] : List (Src Unit)),
    (s.pmra = none → (true, false).1 = true) ∧ (s.pmdec = none → (true, false).2 = true) := by
  intro s hs
  simp only [List.mem_cons, List.not_mem_nil, or_false] at hs
  rcases hs with rfl | rfl <;> simp

/-- Hypotheses of `C116_still`. -/
example : ∃ s : Src Unit, s.pmra = some 3 ∧ s.pmdec = some (-2) ∧ s.parallax = some 0 ∧ (2016 : ℝ) = s.refEpoch ∧
    (0 ≤ s.ra ∧ s.ra < 360) ∧ (-90 < s.dec ∧ s.dec < 90) :=
  ⟨⟨10, 20, 2016, some 3, some (-2), some 0, ()⟩, rfl, rfl, rfl, rfl, by norm_num, by norm_num⟩

end Verif.Thm
