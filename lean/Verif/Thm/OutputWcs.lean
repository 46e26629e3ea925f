import Mathlib.Tactic.LinearCombination
import Verif.Model.OutputWcs
import Verif.Thm.Align
import Verif.Thm.Angles

/-!
# C125: the world coordinate system of the output image
-/

namespace Verif.Thm
open Verif.OutputWcs Verif.Angles Verif.Align
open Verif.Aberration (Vec dot)

/-! ### Specification -/

/-- Unit vectors towards the east and the north of a position. -/
noncomputable def wsEast (p : ℝ × ℝ) : Vec := ⟨-Real.sin (p.1 * Real.pi / 180), Real.cos (p.1 * Real.pi / 180), 0⟩

@[inherit_doc wsEast]
noncomputable def wsNorth (p : ℝ × ℝ) : Vec :=
  ⟨-(Real.sin (p.2 * Real.pi / 180) * Real.cos (p.1 * Real.pi / 180)), -(Real.sin (p.2 * Real.pi / 180) * Real.sin (p.1 * Real.pi / 180)),
    Real.cos (p.2 * Real.pi / 180)⟩

/-- The unit vector of a position. -/
noncomputable def wsDir (p : ℝ × ℝ) : Vec := anUnit p.1 p.2

/-! ### Helper lemmas -/

theorem ws_frames (p : ℝ × ℝ) : toVec p = wsDir p ∧ east p = wsEast p ∧ north p = wsNorth p := by
  refine ⟨an_toVec p, ?_, ?_⟩
  · simp only [east, wsEast, rad, mul_div_assoc]
  · simp only [north, wsNorth, rad, mul_div_assoc]

theorem ws_orthonormal (p : ℝ × ℝ) : dot (wsDir p) (wsDir p) = 1 ∧ dot (wsEast p) (wsEast p) = 1 ∧ dot (wsNorth p) (wsNorth p) = 1 ∧
    dot (wsDir p) (wsEast p) = 0 ∧ dot (wsDir p) (wsNorth p) = 0 ∧ dot (wsEast p) (wsNorth p) = 0 := by
  have h1 := Real.sin_sq_add_cos_sq (p.1 * Real.pi / 180)
  have h2 := Real.sin_sq_add_cos_sq (p.2 * Real.pi / 180)
  simp only [dot, wsDir, wsEast, wsNorth, anUnit]
  generalize Real.sin (p.1 * Real.pi / 180) = a at *
  generalize Real.cos (p.1 * Real.pi / 180) = b at *
  generalize Real.sin (p.2 * Real.pi / 180) = c at *
  generalize Real.cos (p.2 * Real.pi / 180) = d at *
  refine ⟨?_, ?_, ?_, ?_, ?_, ?_⟩
  · linear_combination d ^ 2 * h1 + h2
  · linear_combination h1
  · linear_combination c ^ 2 * h1 + h2
  · ring
  · linear_combination (-c * d) * h1
  · ring

/-- The three vectors are a basis. -/
theorem ws_basis (p : ℝ × ℝ) (w : Vec) :
    w.x = dot w (wsDir p) * (wsDir p).x + dot w (wsEast p) * (wsEast p).x + dot w (wsNorth p) * (wsNorth p).x ∧
    w.y = dot w (wsDir p) * (wsDir p).y + dot w (wsEast p) * (wsEast p).y + dot w (wsNorth p) * (wsNorth p).y ∧
    w.z = dot w (wsDir p) * (wsDir p).z + dot w (wsEast p) * (wsEast p).z + dot w (wsNorth p) * (wsNorth p).z := by
  have h1 := Real.sin_sq_add_cos_sq (p.1 * Real.pi / 180)
  have h2 := Real.sin_sq_add_cos_sq (p.2 * Real.pi / 180)
  simp only [dot, wsDir, wsEast, wsNorth, anUnit]
  generalize Real.sin (p.1 * Real.pi / 180) = a at *
  generalize Real.cos (p.1 * Real.pi / 180) = b at *
  generalize Real.sin (p.2 * Real.pi / 180) = c at *
  generalize Real.cos (p.2 * Real.pi / 180) = d at *
  refine ⟨?_, ?_, ?_⟩
  · linear_combination (-w.x) * h1 - (w.x * b ^ 2 + w.y * a * b) * h2
  · linear_combination (-w.y) * h1 - (w.x * a * b + w.y * a ^ 2) * h2
  · linear_combination (-w.z * d ^ 2 - w.z * c ^ 2) * h1 + (-w.z) * h2 + w.z * (c ^ 2 + d ^ 2) * h1

theorem ws_skyVec (c : ℝ × ℝ) (pc : ℝ × ℝ × ℝ × ℝ) (s : ℝ) (q : ℝ × ℝ) :
    let u := s * (pc.1 * q.1 + pc.2.1 * q.2) * (Real.pi / 180)
    let v := s * (pc.2.2.1 * q.1 + pc.2.2.2 * q.2) * (Real.pi / 180)
    dot (skyVec c pc s q) (wsDir c) = 1 ∧ dot (skyVec c pc s q) (wsEast c) = u ∧ dot (skyVec c pc s q) (wsNorth c) = v ∧
      (skyVec c pc s q).x ^ 2 + (skyVec c pc s q).y ^ 2 + (skyVec c pc s q).z ^ 2 = 1 + u ^ 2 + v ^ 2 := by
  intro u v
  obtain ⟨h1, h2, h3⟩ := ws_frames c
  obtain ⟨o1, o2, o3, o4, o5, o6⟩ := ws_orthonormal c
  have hu : rad (s * (pc.1 * q.1 + pc.2.1 * q.2)) = u := rfl
  have hv : rad (s * (pc.2.2.1 * q.1 + pc.2.2.2 * q.2)) = v := rfl
  simp only [skyVec, h1, h2, h3, hu, hv]
  generalize wsDir c = d at *
  generalize wsEast c = e at *
  generalize wsNorth c = n at *
  simp only [dot] at *
  refine ⟨?_, ?_, ?_, ?_⟩
  · linear_combination o1 + u * o4 + v * o5
  · linear_combination o4 + u * o2 + v * o6
  · linear_combination o5 + u * o6 + v * o3
  · linear_combination o1 + u ^ 2 * o2 + v ^ 2 * o3 + 2 * u * o4 + 2 * v * o5 + 2 * u * v * o6

/-- The direction of a pixel, by components. -/
theorem ws_world (r : Out) (p : ℝ × ℝ) :
    let u := r.scale * (r.pc.1 * (p.1 - r.box.ox) + r.pc.2.1 * (p.2 - r.box.oy)) * (Real.pi / 180)
    let v := r.scale * (r.pc.2.2.1 * (p.1 - r.box.ox) + r.pc.2.2.2 * (p.2 - r.box.oy)) * (Real.pi / 180)
    ∃ k, 0 < k ∧ k ^ 2 = 1 + u ^ 2 + v ^ 2 ∧ dot (wsDir (world r p)) (wsDir r.crval) = 1 / k ∧
      dot (wsDir (world r p)) (wsEast r.crval) = u / k ∧ dot (wsDir (world r p)) (wsNorth r.crval) = v / k := by
  intro u v
  obtain ⟨h1, h2, h3, h4⟩ := ws_skyVec r.crval r.pc r.scale (p.1 - r.box.ox, p.2 - r.box.oy)
  obtain ⟨-, -, h5⟩ := an_angles (skyVec r.crval r.pc r.scale (p.1 - r.box.ox, p.2 - r.box.oy))
  have hpos : 0 < 1 + u ^ 2 + v ^ 2 := by positivity
  rw [h4] at h5
  refine ⟨Real.sqrt (1 + u ^ 2 + v ^ 2), Real.sqrt_pos.mpr hpos, Real.sq_sqrt hpos.le, ?_⟩
  have hk : Real.sqrt (1 + u ^ 2 + v ^ 2) ≠ 0 := (Real.sqrt_pos.mpr hpos).ne'
  have hd : ∀ w : Vec, dot (skyVec r.crval r.pc r.scale (p.1 - r.box.ox, p.2 - r.box.oy)) w =
      Real.sqrt (1 + u ^ 2 + v ^ 2) * dot (wsDir (world r p)) w := by
    intro w
    rw [h5]
    simp only [anScale, dot, wsDir, world]
    ring
  rw [hd] at h1 h2 h3
  refine ⟨?_, ?_, ?_⟩
  · field_simp; linarith
  · rw [eq_div_iff hk, mul_comm]; exact h2
  · rw [eq_div_iff hk, mul_comm]; exact h3

theorem ws_some (a : Ask) (r : Out) (h : wcsFromSregions a = some r) :
    ∃ fps, a.footprints.mapM Verif.Combine.footprintOf = some fps ∧
      calculateFiducial (fps.map fun f => f.map fun p => (some p.1, some p.2)) a.crval = some (some r.crval) ∧
      outputMatrix (rad a.rollRef) (rad a.v3yangle) a.vparity (a.rotation.map rad) = some r.pc ∧
      scaleOf a.pscale a.auto = some r.scale ∧ 2 ≤ r.box.ny ∧ 2 ≤ r.box.nx ∧
      ∃ inv : ℝ × ℝ → Option (ℝ × ℝ), inv = (match a.transform with
          | some t => t
          | none => toPlane r.crval r.pc r.scale) ∧
        (∀ f ∈ fps, ∀ p ∈ f, ∃ q, inv p = some q) ∧
        boundingBox (fun p => (inv p).getD (0, 0)) fps r.crval a.crpix a.shape = some r.box := by
  simp only [wcsFromSregions, Option.bind_eq_some_iff, Option.join_eq_some_iff] at h
  obtain ⟨fps, h1, crval, h2, pc, h3, s, h4, h5⟩ := h
  split_ifs at h5 with hall
  simp only [Option.bind_eq_some_iff] at h5
  obtain ⟨b, h6, h7⟩ := h5
  split_ifs at h7 with hsmall
  simp only [Option.some.injEq] at h7
  subst h7
  simp only [Bool.and_eq_true, List.all_eq_true, List.mem_flatten, Option.isSome_iff_exists] at hall
  push Not at hsmall
  refine ⟨fps, h1, h2, h3, h4, hsmall.1, hsmall.2, _, rfl, ?_, h6⟩
  intro f hf p hp
  exact hall.1 p ⟨f, hf, hp⟩

theorem ws_matrix (a : Ask) (r : Out) (h : wcsFromSregions a = some r) :
    (a.vparity = 1 ∨ a.vparity = -1) ∧ r.pc.1 ^ 2 + r.pc.2.2.1 ^ 2 = 1 ∧ r.pc.2.1 ^ 2 + r.pc.2.2.2 ^ 2 = 1 ∧
      r.pc.1 * r.pc.2.1 + r.pc.2.2.1 * r.pc.2.2.2 = 0 ∧ r.pc.1 * r.pc.2.2.2 - r.pc.2.1 * r.pc.2.2.1 = a.vparity := by
  obtain ⟨fps, -, -, h3, -⟩ := ws_some a r h
  have key : ∀ roll v3, rotMatrix roll v3 a.vparity = some r.pc → (a.vparity = 1 ∨ a.vparity = -1) ∧ r.pc.1 ^ 2 + r.pc.2.2.1 ^ 2 = 1 ∧
      r.pc.2.1 ^ 2 + r.pc.2.2.2 ^ 2 = 1 ∧ r.pc.1 * r.pc.2.1 + r.pc.2.2.1 * r.pc.2.2.2 = 0 ∧
      r.pc.1 * r.pc.2.2.2 - r.pc.2.1 * r.pc.2.2.1 = a.vparity := by
    intro roll v3 hm
    have hv : a.vparity = 1 ∨ a.vparity = -1 := by
      by_contra hc
      rw [(C56_rejected roll v3 a.vparity).mpr (by tauto)] at hm
      simp at hm
    obtain ⟨x, y, z, t, e, -, -, -, e1, e2, e3, e4⟩ := C56_rotation roll v3 a.vparity hv
    rw [hm, Option.some.injEq] at e
    rw [e]
    exact ⟨hv, e1, e2, e3, e4⟩
  cases hr : a.rotation with
  | none => rw [hr] at h3; exact key _ _ h3
  | some t => rw [hr] at h3; exact key _ _ h3

/-! ### C125 -/

/-- C125.  The reference pixel is at the point asked for, or at the fiducial point of the footprints; it is the pixel asked for. -/
theorem C125_reference (a : Ask) (r : Out) (h : wcsFromSregions a = some r) :
    wsDir (world r (r.box.ox, r.box.oy)) = wsDir r.crval ∧
      (-90 < r.crval.2 ∧ r.crval.2 < 90 → world r (r.box.ox, r.box.oy) = (mod360 r.crval.1, r.crval.2)) ∧
      (∀ c, a.crval = some c → r.crval = c) ∧
      (a.crval = none → ∃ fps, a.footprints.mapM Verif.Combine.footprintOf = some fps ∧ fiducialNum fps.flatten = some r.crval) ∧
      ∀ x, a.transform = none → a.crpix = some x → (r.box.ox, r.box.oy) = x := by
  have h0 : skyVec r.crval r.pc r.scale (r.box.ox - r.box.ox, r.box.oy - r.box.oy) = anUnit r.crval.1 r.crval.2 := by
    rw [← an_toVec]
    simp [skyVec, rad]
  have h1 : ∀ v : Vec, anScale 1 v = v := fun v => by simp [anScale]
  obtain ⟨fps, hfps, h2, -, -, -, -, inv, hinv, -, hb⟩ := ws_some a r h
  refine ⟨?_, ?_, ?_, ?_, ?_⟩
  · obtain ⟨-, -, h5⟩ := an_angles (anUnit r.crval.1 r.crval.2)
    have hn : (anUnit r.crval.1 r.crval.2).x ^ 2 + (anUnit r.crval.1 r.crval.2).y ^ 2 + (anUnit r.crval.1 r.crval.2).z ^ 2 = 1 :=
      an_unit_norm r.crval.1 r.crval.2
    rw [hn, Real.sqrt_one, h1] at h5
    simp only [world, h0, wsDir]
    exact h5.symm
  · intro hl
    rw [world, h0, ← h1 (anUnit _ _)]
    exact an_angles_unit 1 _ _ one_pos hl
  · intro c hc
    rw [hc] at h2
    simpa [calculateFiducial] using h2.symm
  · intro hc
    refine ⟨fps, hfps, ?_⟩
    obtain ⟨hne, -⟩ : fps.flatten ≠ [] ∧ True := by
      refine ⟨fun he => ?_, trivial⟩
      have : calculateFiducial (fps.map fun f => f.map fun p => ((some p.1 : Option ℝ), (some p.2 : Option ℝ))) none = none := by
        rw [(C110_special _ (0, 0)).2.2]
        intro f hf
        obtain ⟨g, hg, rfl⟩ := List.mem_map.mp hf
        have : g = [] := by
          cases g with
          | nil => rfl
          | cons x t => exact absurd (he ▸ List.mem_flatten.mpr ⟨_, hg, List.mem_cons_self⟩ : x ∈ []) (by simp)
        simp [this]
      rw [hc, this] at h2
      simp at h2
    obtain ⟨lon, lat, q, c, e1, -, -, -, -, -⟩ := C110_direction fps hne
    have hnum : ∀ l : List (ℝ × ℝ), numbers (l.map fun p => (some p.1, some p.2)) = some l := by
      intro l
      induction l with
      | nil => rfl
      | cons x t ih => simp [numbers, ih]
    rw [hc] at h2
    simp only [calculateFiducial, fiducial, ← List.map_flatten, hnum, Option.map_eq_some_iff, Option.some.injEq] at h2
    obtain ⟨w, hw, rfl⟩ := h2
    exact hw
  · intro x ht hx
    rw [ht] at hinv
    subst hinv
    rw [hx] at hb
    have := C57_crpix _ _ _ _ _ _ hb
    have hz : toPlane r.crval r.pc r.scale r.crval = some (0, 0) := by
      obtain ⟨e1, e2, e3⟩ := ws_frames r.crval
      obtain ⟨o1, -, -, o4, o5, -⟩ := ws_orthonormal r.crval
      simp [toPlane, e1, e2, e3, o1, o4, o5, deg]
    simpa [hz] using this

/-- C125.  The tangent of the angle between a pixel and the reference pixel is their distance in pixels times the pixel scale
(in radians), in all directions. -/
theorem C125_scale (a : Ask) (r : Out) (h : wcsFromSregions a = some r) (p : ℝ × ℝ) :
    Real.tan (Real.arccos (dot (wsDir (world r p)) (wsDir r.crval))) =
      |r.scale| * (Real.pi / 180) * Real.sqrt ((p.1 - r.box.ox) ^ 2 + (p.2 - r.box.oy) ^ 2) := by
  obtain ⟨-, m1, m2, m3, -⟩ := ws_matrix a r h
  obtain ⟨k, hk, hk2, hd, -, -⟩ := ws_world r p
  rw [hd, Real.tan_arccos]
  have hpi := Real.pi_pos
  have e : 1 - (1 / k) ^ 2 = (r.scale * (Real.pi / 180) / k) ^ 2 * ((p.1 - r.box.ox) ^ 2 + (p.2 - r.box.oy) ^ 2) := by
    have e0 : k ^ 2 - 1 = (r.scale * (Real.pi / 180)) ^ 2 * ((p.1 - r.box.ox) ^ 2 + (p.2 - r.box.oy) ^ 2) := by
      linear_combination hk2 + ((r.scale * (Real.pi / 180)) ^ 2 * (p.1 - r.box.ox) ^ 2) * m1 +
        ((r.scale * (Real.pi / 180)) ^ 2 * (p.2 - r.box.oy) ^ 2) * m2 +
        (2 * (r.scale * (Real.pi / 180)) ^ 2 * (p.1 - r.box.ox) * (p.2 - r.box.oy)) * m3
    rw [div_pow, div_pow, div_mul_eq_mul_div, ← e0]
    field_simp
  rw [e, Real.sqrt_mul (sq_nonneg _), Real.sqrt_sq_eq_abs, abs_div, abs_mul, abs_of_pos hk, abs_of_pos (by positivity : 0 < Real.pi / 180)]
  field_simp

/-- C125.  With a rotation asked for, the y axis at the reference pixel points that many degrees from north to east, and the x axis is at
right angles, towards the east for parity 1 (and rotation zero) and the west for parity -1. -/
theorem C125_north (a : Ask) (r : Out) (h : wcsFromSregions a = some r) (rot : ℝ) (hrot : a.rotation = some rot) (hs : 0 < r.scale) (t : ℝ)
    (ht : 0 < t) :
    (∃ k, 0 < k ∧ dot (wsDir (world r (r.box.ox, r.box.oy + t))) (wsEast r.crval) = k * Real.sin (rot * (Real.pi / 180)) ∧
      dot (wsDir (world r (r.box.ox, r.box.oy + t))) (wsNorth r.crval) = k * Real.cos (rot * (Real.pi / 180))) ∧
    ∃ k, 0 < k ∧ dot (wsDir (world r (r.box.ox + t, r.box.oy))) (wsEast r.crval) = k * (a.vparity * Real.cos (rot * (Real.pi / 180))) ∧
      dot (wsDir (world r (r.box.ox + t, r.box.oy))) (wsNorth r.crval) = k * (-a.vparity * Real.sin (rot * (Real.pi / 180))) := by
  obtain ⟨hv, -⟩ := ws_matrix a r h
  obtain ⟨fps, -, -, h3, -⟩ := ws_some a r h
  rw [hrot] at h3
  simp only [Option.map_some] at h3
  rw [(C56_requested_rotation (rad a.rollRef) (rad a.v3yangle) a.vparity hv (rad rot)).1, Option.some.injEq] at h3
  have hpi := Real.pi_pos
  constructor
  · obtain ⟨k, hk, -, -, he, hn⟩ := ws_world r (r.box.ox, r.box.oy + t)
    refine ⟨r.scale * t * (Real.pi / 180) / k, by positivity, ?_, ?_⟩
    · rw [he, ← h3]; simp only [rad]; ring
    · rw [hn, ← h3]; simp only [rad]; ring
  · obtain ⟨k, hk, -, -, he, hn⟩ := ws_world r (r.box.ox + t, r.box.oy)
    refine ⟨r.scale * t * (Real.pi / 180) / k, by positivity, ?_, ?_⟩
    · rw [he, ← h3]; simp only [rad]; ring
    · rw [hn, ← h3]; simp only [rad]; ring

/-- C125.  Without a transform, shape and reference pixel asked for, every vertex of every footprint is the sky position of a point in the
output image, or less than a pixel beyond its upper limits. -/
theorem C125_covers (a : Ask) (r : Out) (h : wcsFromSregions a = some r) (ht : a.transform = none) (hx : a.crpix = none)
    (hsh : a.shape = none) (hs : r.scale ≠ 0) :
    ∃ fps, a.footprints.mapM Verif.Combine.footprintOf = some fps ∧ ∀ f ∈ fps, ∀ p ∈ f, ∃ q : ℝ × ℝ,
      wsDir (world r q) = wsDir p ∧ 0 ≤ q.1 ∧ q.1 < r.box.nx + 1/2 ∧ 0 ≤ q.2 ∧ q.2 < r.box.ny + 1/2 := by
  obtain ⟨fps, h1, -, -, -, -, -, inv, hinv, hin, hb⟩ := ws_some a r h
  obtain ⟨-, -, -, -, hdet⟩ := ws_matrix a r h
  have hv := (ws_matrix a r h).1
  rw [ht] at hinv
  subst hinv
  rw [hx, hsh] at hb
  have hz : toPlane r.crval r.pc r.scale r.crval = some (0, 0) := by
    obtain ⟨e1, e2, e3⟩ := ws_frames r.crval
    obtain ⟨o1, -, -, o4, o5, -⟩ := ws_orthonormal r.crval
    simp [toPlane, e1, e2, e3, o1, o4, o5, deg]
  obtain ⟨b1, b2, b3, -⟩ := C57_covers _ _ _ (by simp [hz]) _ hb
  refine ⟨fps, h1, fun f hf p hp => ?_⟩
  obtain ⟨q, hq⟩ := hin f hf p hp
  obtain ⟨c1, c2⟩ := b3 f hf p hp
  simp only [hq, Option.getD_some, AlCovered, b1, b2] at c1 c2
  refine ⟨(q.1 + r.box.ox, q.2 + r.box.oy), ?_, c1.1, by linarith [c1.2.2], c2.1, by linarith [c2.2.2]⟩
  simp only [toPlane, Option.ite_none_right_eq_some, Option.some.injEq] at hq
  obtain ⟨hpos, hq⟩ := hq
  obtain ⟨e1, e2, e3⟩ := ws_frames r.crval
  obtain ⟨e4, -, -⟩ := ws_frames p
  rw [e1, e2, e3, e4] at hq
  rw [e1, e4] at hpos
  have hvp : (a.vparity : ℝ) ≠ 0 := by rcases hv with h | h <;> rw [h] <;> norm_num
  have hdet0 : r.pc.1 * r.pc.2.2.2 - r.pc.2.1 * r.pc.2.2.1 ≠ 0 := by rw [hdet]; exact hvp
  have hpi := Real.pi_ne_zero
  have hl1 : ∀ u v, r.pc.1 * ((r.pc.2.2.2 * u - r.pc.2.1 * v) / (r.pc.1 * r.pc.2.2.2 - r.pc.2.1 * r.pc.2.2.1)) +
      r.pc.2.1 * ((r.pc.1 * v - r.pc.2.2.1 * u) / (r.pc.1 * r.pc.2.2.2 - r.pc.2.1 * r.pc.2.2.1)) = u := by
    intro u v
    rw [← mul_div_assoc, ← mul_div_assoc, ← add_div, div_eq_iff hdet0]
    ring
  have hl2 : ∀ u v, r.pc.2.2.1 * ((r.pc.2.2.2 * u - r.pc.2.1 * v) / (r.pc.1 * r.pc.2.2.2 - r.pc.2.1 * r.pc.2.2.1)) +
      r.pc.2.2.2 * ((r.pc.1 * v - r.pc.2.2.1 * u) / (r.pc.1 * r.pc.2.2.2 - r.pc.2.1 * r.pc.2.2.1)) = v := by
    intro u v
    rw [← mul_div_assoc, ← mul_div_assoc, ← add_div, div_eq_iff hdet0]
    ring
  have hsky : skyVec r.crval r.pc r.scale q = anScale (1 / dot (wsDir p) (wsDir r.crval)) (wsDir p) := by
    obtain ⟨x1, x2, x3⟩ := ws_basis r.crval (wsDir p)
    have hu : rad (r.scale * (r.pc.1 * q.1 + r.pc.2.1 * q.2)) = dot (wsDir p) (wsEast r.crval) / dot (wsDir p) (wsDir r.crval) := by
      rw [← hq]
      simp only [hl1, rad, deg]
      field_simp
    have hv : rad (r.scale * (r.pc.2.2.1 * q.1 + r.pc.2.2.2 * q.2)) = dot (wsDir p) (wsNorth r.crval) / dot (wsDir p) (wsDir r.crval) := by
      rw [← hq]
      simp only [hl2, rad, deg]
      field_simp
    simp only [skyVec, hu, hv, e1, e2, e3, anScale]
    generalize dot (wsDir p) (wsDir r.crval) = d at *
    apply an_ext
    · simp only; field_simp; linarith
    · simp only; field_simp; linarith
    · simp only; field_simp; linarith
  obtain ⟨-, -, h5⟩ := an_angles (anScale (1 / dot (wsDir p) (wsDir r.crval)) (wsDir p))
  have hn : (anScale (1 / dot (wsDir p) (wsDir r.crval)) (wsDir p)).x ^ 2 + (anScale (1 / dot (wsDir p) (wsDir r.crval)) (wsDir p)).y ^ 2 +
      (anScale (1 / dot (wsDir p) (wsDir r.crval)) (wsDir p)).z ^ 2 = (1 / dot (wsDir p) (wsDir r.crval)) ^ 2 := by
    have := an_unit_norm p.1 p.2
    simp only [vaNormSq] at this
    simp only [anScale, wsDir]
    linear_combination (1 / dot (anUnit p.1 p.2) (anUnit r.crval.1 r.crval.2)) ^ 2 * this
  have hk : 0 < 1 / dot (wsDir p) (wsDir r.crval) := by positivity
  rw [hn, Real.sqrt_sq hk.le] at h5
  simp only [world, add_sub_cancel_right, hsky]
  generalize 1 / dot (wsDir p) (wsDir r.crval) = k at *
  simp only [anScale, Vec.mk.injEq, mul_eq_mul_left_iff, hk.ne', or_false] at h5
  exact an_ext _ _ h5.1.symm h5.2.1.symm h5.2.2.symm

/-- C125.  The shape is the one asked for; both sides have at least two pixels; the pixel scale is the one asked for unless that is zero. -/
theorem C125_shape (a : Ask) (r : Out) (h : wcsFromSregions a = some r) :
    2 ≤ r.box.ny ∧ 2 ≤ r.box.nx ∧ (∀ s, a.shape = some s → (r.box.ny, r.box.nx) = s) ∧
      (∀ p, a.pscale = some p → p ≠ 0 → r.scale = p) ∧ (a.pscale = none ∨ a.pscale = some 0 → a.auto = some r.scale) := by
  obtain ⟨fps, -, -, -, h4, h5, h6, inv, -, -, hb⟩ := ws_some a r h
  refine ⟨h5, h6, ?_, ?_, ?_⟩
  · intro s hs
    rw [hs] at hb
    simp only [boundingBox, Option.map_some] at hb
    split at hb
    · rename_i bx nx ox by_ ny oy hx hy
      simp only [Option.some.injEq] at hb
      rw [← hb]
      rw [(C57_given_size _ _ _ _ _ _ _ hx).1, (C57_given_size _ _ _ _ _ _ _ hy).1]
    · simp at hb
  · intro p hp h0
    rw [hp] at h4
    simpa [scaleOf, h0] using h4.symm
  · rintro (hp | hp) <;> · rw [hp] at h4; simpa [scaleOf] using h4

/-- C125.  Footprints that reach 90 degrees or more from the reference point are an error. -/
theorem C125_horizon (a : Ask) (fps : List (List (ℝ × ℝ))) (hf : a.footprints.mapM Verif.Combine.footprintOf = some fps) (c : ℝ × ℝ)
    (hc : a.crval = some c) (ht : a.transform = none) (f : List (ℝ × ℝ)) (hm : f ∈ fps) (p : ℝ × ℝ) (hp : p ∈ f)
    (hd : dot (wsDir p) (wsDir c) ≤ 0) : wcsFromSregions a = none := by
  rcases h : wcsFromSregions a with - | r
  · rfl
  obtain ⟨fps', h1, -, -, -, -, -, inv, hinv, hin, -⟩ := ws_some a r h
  rw [hf, Option.some.injEq] at h1
  subst h1
  have hcr : r.crval = c := (C125_reference a r h).2.2.1 c hc
  obtain ⟨q, hq⟩ := hin f hm p hp
  rw [ht] at hinv
  subst hinv
  rw [hcr] at hq
  simp only [toPlane, (ws_frames p).1, (ws_frames c).1, not_lt.mpr hd, if_false, reduceCtorEq] at hq

/-- C125.  A parity other than 1 and -1 is an error. -/
theorem C125_parity (a : Ask) (hv : a.vparity ≠ 1 ∧ a.vparity ≠ -1) : wcsFromSregions a = none := by
  rcases h : wcsFromSregions a with - | r
  · rfl
  · rcases (ws_matrix a r h).1 with h1 | h1
    · exact absurd h1 hv.1
    · exact absurd h1 hv.2

/-- C125 (finding).  A transform given by the caller decides on the bounding box and the offset only.  The WCS returned has the matrix, scale and reference
point it would have without, although the documentation says that scale and rotation are ignored. -/
theorem C125_transform_not_used (a : Ask) (t : ℝ × ℝ → Option (ℝ × ℝ)) (r r' : Out) (h : wcsFromSregions a = some r)
    (h' : wcsFromSregions { a with transform := some t } = some r') : r'.crval = r.crval ∧ r'.scale = r.scale ∧ r'.pc = r.pc := by
  obtain ⟨fps, h1, h2, h3, h4, -⟩ := ws_some _ _ h
  obtain ⟨fps', h1', h2', h3', h4', -⟩ := ws_some _ _ h'
  simp only at h1' h2' h3' h4'
  rw [h1, Option.some.injEq] at h1'
  subst h1'
  rw [h2, Option.some.injEq, Option.some.injEq] at h2'
  rw [h3, Option.some.injEq] at h3'
  rw [h4, Option.some.injEq] at h4'
  exact ⟨h2'.symm, h4'.symm, h3'.symm⟩

/-! ### Example: a footprint of 45 degrees and pixels of one degree -/

noncomputable def wsAsk : Ask where
  footprints := [.inr [(0, 0), (45, 0), (0, 45)]]
  rollRef := 0
  v3yangle := 0
  vparity := 1
  auto := none
  transform := none
  pscale := some 1
  rotation := some 0
  shape := none
  crpix := none
  crval := some (0, 0)

theorem ws_ask : ∃ r, wcsFromSregions wsAsk = some r ∧ r.scale = 1 ∧ r.crval = (0, 0) := by
  have hpi := Real.pi_pos
  have h4 := Real.pi_le_four
  have e45 : rad 45 = Real.pi / 4 := by simp only [rad]; ring
  have e0 : rad 0 = 0 := by simp [rad]
  have h2 : (0 : ℝ) < Real.sqrt 2 := Real.sqrt_pos.mpr (by norm_num)
  have hm : outputMatrix (rad 0) (rad 0) 1 (some (rad 0)) = some ((1 : ℝ), 0, 0, 1) := by
    have := (C56_requested_rotation (rad 0) (rad 0) 1 (Or.inl rfl) 0).2
    simpa [e0] using this
  have t1 : toPlane (0, 0) ((1 : ℝ), 0, 0, 1) 1 (0, 0) = some (0, 0) := by
    simp [toPlane, toVec, east, north, dot, e0, deg]
  have t2 : toPlane (0, 0) ((1 : ℝ), 0, 0, 1) 1 (45, 0) = some (deg 1, 0) := by
    simp [toPlane, toVec, east, north, dot, e0, e45, deg, Real.cos_pi_div_four, Real.sin_pi_div_four, h2, h2.ne']
  have t3 : toPlane (0, 0) ((1 : ℝ), 0, 0, 1) 1 (0, 45) = some (0, deg 1) := by
    simp [toPlane, toVec, east, north, dot, e0, e45, deg, Real.cos_pi_div_four, Real.sin_pi_div_four, h2, h2.ne']
  have hdeg : 3 / 2 ≤ deg 1 := by
    simp only [deg, one_mul]
    rw [le_div_iff₀ hpi]; linarith
  have htr : 2 ≤ Verif.Resample.trunc (deg 1 + 1 / 2) := by
    simp only [Verif.Resample.trunc]
    rw [if_pos (by linarith), Int.le_floor]
    push_cast; linarith
  have hax1 : axisBox [0, deg 1, 0] 0 none none = some ((-(1 / 2), ((Verif.Resample.trunc (deg 1 + 1 / 2) : Int) : ℝ) - 1 / 2),
      Verif.Resample.trunc (deg 1 + 1 / 2), 0) := by
    have hmin : ([0, deg 1, 0] : List ℝ).min? = some 0 := by
      rw [List.min?_eq_some_iff]; simp; linarith
    have hmax : ([0, deg 1, 0] : List ℝ).max? = some (deg 1) := by
      rw [List.max?_eq_some_iff]; simp; linarith
    simp [axisBox, hmin, hmax]
  have hax2 : axisBox [0, 0, deg 1] 0 none none = some ((-(1 / 2), ((Verif.Resample.trunc (deg 1 + 1 / 2) : Int) : ℝ) - 1 / 2),
      Verif.Resample.trunc (deg 1 + 1 / 2), 0) := by
    have hmin : ([0, 0, deg 1] : List ℝ).min? = some 0 := by
      rw [List.min?_eq_some_iff]; simp; linarith
    have hmax : ([0, 0, deg 1] : List ℝ).max? = some (deg 1) := by
      rw [List.max?_eq_some_iff]; simp; linarith
    simp [axisBox, hmin, hmax]
  have hb : boundingBox (fun p => (toPlane (0, 0) ((1 : ℝ), 0, 0, 1) 1 p).getD (0, 0)) [[(0, 0), (45, 0), (0, 45)]] (0, 0) none none = some
      ⟨(-(1 / 2), ((Verif.Resample.trunc (deg 1 + 1 / 2) : Int) : ℝ) - 1 / 2), (-(1 / 2), ((Verif.Resample.trunc (deg 1 + 1 / 2) : Int) : ℝ) - 1 / 2),
        Verif.Resample.trunc (deg 1 + 1 / 2), Verif.Resample.trunc (deg 1 + 1 / 2), 0, 0⟩ := by
    simp [boundingBox, t1, t2, t3, hax1, hax2]
  generalize htv : Verif.Resample.trunc (deg 1 + 1 / 2) = n at htr hb
  refine ⟨⟨⟨(-(1 / 2), (n : ℝ) - 1 / 2), (-(1 / 2), (n : ℝ) - 1 / 2), n, n, 0, 0⟩, (0, 0), 1, ((1 : ℝ), 0, 0, 1)⟩, ?_, rfl, rfl⟩
  simp only [wcsFromSregions, wsAsk, List.mapM_cons, List.mapM_nil, Verif.Combine.footprintOf, Option.map_some, calculateFiducial, scaleOf, hm]
  simp [t1, t2, t3, hb]
  omega

/-- The hypotheses of `C125_covers`. -/
example : ∃ r, wcsFromSregions wsAsk = some r ∧ wsAsk.transform = none ∧ wsAsk.crpix = none ∧ wsAsk.shape = none ∧ r.scale ≠ 0 := by
  obtain ⟨r, h, hs, -⟩ := ws_ask
  exact ⟨r, h, rfl, rfl, rfl, by rw [hs]; norm_num⟩

/-- The hypotheses of `C125_north`. -/
example : ∃ r, wcsFromSregions wsAsk = some r ∧ wsAsk.rotation = some 0 ∧ 0 < r.scale := by
  obtain ⟨r, h, hs, -⟩ := ws_ask
  exact ⟨r, h, rfl, by rw [hs]; norm_num⟩

/-- The hypotheses of `C125_horizon`: a vertex on the other side. -/
example : dot (wsDir (180, 0)) (wsDir (0, 0)) ≤ 0 := by
  have e : (180 : ℝ) * Real.pi / 180 = Real.pi := by ring
  simp [dot, wsDir, anUnit, e]

end Verif.Thm
