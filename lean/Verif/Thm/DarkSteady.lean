import Verif.Thm.Pipeline
import Mathlib.Tactic.FieldSimp

/-!
# C173: a steady dark current is removed exactly, however the exposure is read out
-/

set_option linter.unusedSectionVars false

namespace Verif.Thm

open Verif.Dark

variable {α : Type} [Field α] [CharZero α]

/-! ## Specification -/

/-- What the detector sends for group `g`: the mean of its `nframes` frames, `groupgap` frames being dropped after each group. -/
def sdRead (nframes groupgap : Nat) (f : Nat → α) (g : Nat) : α :=
  ((List.range nframes).map fun k => f (g * (nframes + groupgap) + k)).sum / (nframes : α)

/-- A dark current that grows by `d` per frame. -/
def sdDark (a d : α) (k : Nat) : α := a + d * (k : α)

/-- A science pixel of `ni` integrations of `n` groups, whose frame `k` of integration `i` is `s i k` plus the dark current. -/
structure SdSci (sci : Sci α) (ni n : Nat) (s : Nat → Nat → α) (a d : α) : Prop where
  ints : 0 < ni
  groups : 0 < n
  frames : 0 < sci.nframes
  data : sci.data = (List.range ni).map fun i => (List.range n).map fun g =>
    some (sdRead sci.nframes sci.groupgap (fun k => s i k + sdDark a d k) g)

/-- A reference pixel of `m` groups that recorded the same dark current with its own read-out. -/
structure SdRef (drk : Ref α) (m : Nat) (dq : Nat) (a d : α) : Prop where
  long : 2 ≤ m
  groups : drk.ngroups = m
  frames : 0 < drk.nframes
  data : drk.arr = .d3 ((List.range m).map fun g => some (sdRead drk.nframes drk.groupgap (sdDark a d) g)) dq

/-! ## Lemmas -/

theorem sd_sum_add (l : List Nat) (f g : Nat → α) : (l.map fun k => f k + g k).sum = (l.map f).sum + (l.map g).sum := by
  induction l with
  | nil => simp
  | cons x l ih => simp only [List.map_cons, List.sum_cons, ih]; ring

theorem sd_sum_const (l : List Nat) (c : α) : (l.map fun _ => c).sum = (l.length : α) * c := by
  induction l with
  | nil => simp
  | cons x l ih => simp only [List.map_cons, List.sum_cons, ih, List.length_cons]; push_cast; ring

theorem sd_read_add (nf gap : Nat) (f h : Nat → α) (g : Nat) :
    sdRead nf gap (fun k => f k + h k) g = sdRead nf gap f g + sdRead nf gap h g := by
  simp only [sdRead]
  rw [sd_sum_add, add_div]

/-- The mean of a steady signal grows by the time between groups. -/
theorem sd_read_dark (nf gap : Nat) (hnf : 0 < nf) (a d : α) (g : Nat) :
    sdRead nf gap (sdDark a d) g = sdRead nf gap (sdDark a d) 0 + (g : α) * (d * ((nf + gap : Nat) : α)) := by
  have hne : (nf : α) ≠ 0 := Nat.cast_ne_zero.2 hnf.ne'
  have h : ((List.range nf).map fun k => sdDark a d (g * (nf + gap) + k)).sum =
      ((List.range nf).map fun k => sdDark a d (0 * (nf + gap) + k)).sum + (nf : α) * ((g : α) * (d * ((nf + gap : Nat) : α))) := by
    have := sd_sum_const (List.range nf) ((g : α) * (d * ((nf + gap : Nat) : α)))
    rw [List.length_range] at this
    rw [← this, ← sd_sum_add]
    congr 1
    refine List.map_congr_left fun k _ => ?_
    simp only [sdDark]
    push_cast
    ring
  simp only [sdRead]
  rw [h, add_div, mul_div_cancel_left₀ _ hne]

/-- The reference, continued past its end, goes on recording the steady dark current. -/
theorem sd_darkAt (m : Nat) (hm : 2 ≤ m) (F : Nat → α) (c e : α) (hF : ∀ g, F g = c + (g : α) * e) (g : Nat) :
    darkAt ((List.range m).map fun g => some (F g)) g = F g := by
  unfold darkAt
  simp only [List.length_map, List.length_range]
  split
  · rename_i h
    simp [h]
  · rename_i h
    rw [List.getElem?_map, List.getElem?_map, List.getElem?_range (by omega), List.getElem?_range (by omega)]
    simp only [Option.map_some, Option.getD_some]
    obtain ⟨t, rfl⟩ := Nat.exists_eq_add_of_le (not_lt.1 h)
    obtain ⟨m, rfl⟩ := Nat.exists_eq_add_of_le hm
    have e1 : 2 + m - 1 = m + 1 := by omega
    have e2 : 2 + m - 2 = m := by omega
    have e3 : 2 + m + t - (2 + m) + 1 = t + 1 := by omega
    rw [e1, e2, e3, hF, hF, hF]
    push_cast
    ring

theorem sd_rect {sci : Sci α} {ni n : Nat} {s : Nat → Nat → α} {a d : α} (h : SdSci sci ni n s a d) : Rect sci n := by
  refine ⟨?_, h.groups, ?_⟩
  · rw [h.data]
    have := h.ints
    simp; omega
  · intro row hrow
    rw [h.data] at hrow
    obtain ⟨i, -, rfl⟩ := List.mem_map.1 hrow
    simp

theorem sd_subtract {sci : Sci α} {ni n : Nat} {s : Nat → Nat → α} {a d : α} (h : SdSci sci ni n s a d) (f : Nat → α) :
    (sci.data.zipIdx.map fun p => subtractGroups p.1 f) = (List.range ni).map fun i => (List.range n).map fun g =>
      some (sdRead sci.nframes sci.groupgap (s i) g + (sdRead sci.nframes sci.groupgap (sdDark a d) g - f g)) := by
  rw [h.data]
  refine List.ext_getElem (by simp) ?_
  intro i h1 h2
  simp only [List.getElem_map, List.getElem_zipIdx, List.getElem_range, subtractGroups]
  refine List.ext_getElem (by simp) ?_
  intro g h3 h4
  simp only [List.getElem_map, List.getElem_zipIdx, List.getElem_range, Option.map_some, Nat.zero_add, Option.some.injEq]
  rw [sd_read_add]
  ring

/-! ## Theorems -/

/-- **C173**: a dark current that grows steadily is removed exactly.  Science frames are the signal plus the dark current; each group is the mean of
its frames.  The reference recorded the same dark current, frame by frame or in groups like those of the science data, and may be shorter than the
exposure.  The step completes, and every group becomes the mean of the signal alone over the frames of that group. -/
theorem C173_removed (sci : Sci α) (drk : Ref α) (ni n m dq : Nat) (s : Nat → Nat → α) (a d : α)
    (hs : SdSci sci ni n s a d) (hr : SdRef drk m dq a d)
    (hread : (drk.nframes = 1 ∧ drk.groupgap = 0) ∨ (sci.nframes = drk.nframes ∧ sci.groupgap = drk.groupgap)) :
    ∃ res, doCorrection sci drk = some res ∧ res.skipped = false ∧
      res.out.data = (List.range ni).map fun i => (List.range n).map fun g => some (sdRead sci.nframes sci.groupgap (s i) g) := by
  have hF := sd_read_dark drk.nframes drk.groupgap hr.frames a d
  have hat := sd_darkAt m hr.long _ _ _ hF
  have hlen : drk.ngroups = ((List.range m).map fun g => some (sdRead drk.nframes drk.groupgap (sdDark a d) g)).length := by
    simp [hr.groups]
  have hl2 : 2 ≤ ((List.range m).map fun g => some (sdRead drk.nframes drk.groupgap (sdDark a d) g)).length := by
    simpa using hr.long
  rcases hread with ⟨h1, h2⟩ | ⟨h1, h2⟩
  · obtain ⟨res, q1, q2, q3⟩ := C14_frame_average_aligned_partial sci drk n _ dq (sd_rect hs) hs.frames hr.data hlen hl2 h1 h2
    refine ⟨res, q1, q2, ?_⟩
    rw [q3, sd_subtract hs]
    refine List.map_congr_left fun i _ => List.map_congr_left fun g _ => ?_
    have : darkGroupMean ((List.range m).map fun g => some (sdRead drk.nframes drk.groupgap (sdDark a d) g)) sci.nframes sci.groupgap g =
        sdRead sci.nframes sci.groupgap (sdDark a d) g := by
      simp only [darkGroupMean]
      rw [sdRead]
      congr 2
      refine List.map_congr_left fun k _ => ?_
      rw [hat, h1, h2]
      simp [sdRead]
    rw [this, sub_self, add_zero]
  · obtain ⟨res, q1, q2, q3⟩ := C17_matching_subtracts sci drk n _ dq (sd_rect hs) hs.frames hr.data hlen hl2 h1 h2
    refine ⟨res, q1, q2, ?_⟩
    rw [q3, sd_subtract hs]
    refine List.map_congr_left fun i _ => List.map_congr_left fun g _ => ?_
    rw [hat, h1, h2, sub_self, add_zero]

/-- **C173** (what is left of a steady source): its groups grow by the signal of one group time, frames that are averaged and frames that are dropped
alike. -/
theorem C173_ramp (sci : Sci α) (drk : Ref α) (ni n m dq : Nat) (c b : α) (a d : α)
    (hs : SdSci sci ni n (fun _ k => c + b * (k : α)) a d) (hr : SdRef drk m dq a d)
    (hread : (drk.nframes = 1 ∧ drk.groupgap = 0) ∨ (sci.nframes = drk.nframes ∧ sci.groupgap = drk.groupgap)) :
    ∃ res u, doCorrection sci drk = some res ∧ res.skipped = false ∧
      res.out.data = (List.range ni).map fun _ => (List.range n).map fun (g : Nat) =>
        some (u + (g : α) * (b * ((sci.nframes + sci.groupgap : Nat) : α))) := by
  obtain ⟨res, q1, q2, q3⟩ := C173_removed sci drk ni n m dq _ a d hs hr hread
  refine ⟨res, sdRead sci.nframes sci.groupgap (sdDark c b) 0, q1, q2, ?_⟩
  rw [q3]
  refine List.map_congr_left fun i _ => List.map_congr_left fun g _ => ?_
  rw [← sd_read_dark sci.nframes sci.groupgap hs.frames c b g]
  rfl

/-- The condition on the read-out is needed.  A reference whose groups are means of `q` frames each, without gaps, is averaged as if its groups were
frames: of a steady dark current `d` per frame, `q · d` per frame is subtracted, so `(q - 1) · d` per frame too much. -/
theorem C173_coarse_dark_too_much (sci : Sci α) (drk : Ref α) (ni n m dq : Nat) (s : Nat → Nat → α) (a d : α)
    (hs : SdSci sci ni n s a d) (hr : SdRef drk m dq a d) (hgap : drk.groupgap = 0) (hless : drk.nframes ≤ sci.nframes)
    (hdiff : ¬ (sci.nframes = drk.nframes ∧ sci.groupgap = drk.groupgap))
    (hfit : totalFrames n sci.nframes sci.groupgap ≤ m) :
    ∃ res u, doCorrection sci drk = some res ∧ res.skipped = false ∧
      res.out.data = (List.range ni).map fun i => (List.range n).map fun (g : Nat) =>
        some (sdRead sci.nframes sci.groupgap (s i) g + u -
          (g : α) * (((drk.nframes : α) - 1) * d * ((sci.nframes + sci.groupgap : Nat) : α))) := by
  have hF := sd_read_dark drk.nframes drk.groupgap hr.frames a d
  have hrect := sd_rect hs
  have hsn := rect_ngroups hrect
  set F := sdRead drk.nframes drk.groupgap (sdDark a d) with hFdef
  have hext : extended sci drk = some drk.arr := by
    simp only [extended]
    rw [if_neg]
    rw [hsn, hr.groups, hgap]
    have : m * 1 ≤ m * drk.nframes := Nat.mul_le_mul_left _ hr.frames
    have h2 : totalFrames m drk.nframes 0 = m * drk.nframes := by simp [totalFrames]
    rw [h2]
    omega
  have hzero : zeroNaNs drk.arr = .d3 ((List.range m).map fun g => some (F g)) dq := by
    rw [hr.data]
    simp only [zeroNaNs, nanToZero, List.map_map, Function.comp_def, Option.getD_some]
    rfl
  have havg : averageArr (.d3 ((List.range m).map fun g => some (F g)) dq) sci.data.length sci.ngroups sci.nframes sci.groupgap =
      some (.d3 ((List.range n).map fun g => some (sdRead sci.nframes sci.groupgap F g)) dq) := by
    simp only [averageArr, hsn]
    rw [averageLoop_range F m sci.nframes sci.groupgap hs.frames n 0 (fun g hg => window_le n _ _ _ g hfit hg)]
    simp [sdRead]
  have hsub := subtractDark_eq sci (.d3 ((List.range n).map fun g => some (sdRead sci.nframes sci.groupgap F g)) dq) dq n
    (fun _ => (List.range n).map fun g => some (sdRead sci.nframes sci.groupgap F g)) rfl hrect.2.2 (fun _ _ => rfl) (by intro i _; simp)
  have hcorr : doCorrection sci drk = some ⟨false, { sci with
      data := sci.data.zipIdx.map (fun p => List.zipWith osub p.1 ((List.range n).map fun g => some (sdRead sci.nframes sci.groupgap F g))),
      pixeldq := sci.pixeldq ||| dq }, some (.d3 ((List.range n).map fun g => some (sdRead sci.nframes sci.groupgap F g)) dq)⟩ := by
    unfold doCorrection
    rw [hext]
    simp only [hzero]
    rw [if_neg (by omega), if_neg hdiff, havg]
    simp only [hsub]
    rfl
  refine ⟨_, sdRead sci.nframes sci.groupgap (sdDark a d) 0 - sdRead sci.nframes sci.groupgap F 0, hcorr, rfl, ?_⟩
  simp only
  rw [zipIdx_map_subtract sci (fun _ => (List.range n).map fun g => some (sdRead sci.nframes sci.groupgap F g))
    (fun _ => sdRead sci.nframes sci.groupgap F) n hrect.2.2 (fun i _ => ⟨n, le_refl n, rfl⟩), sd_subtract hs]
  refine List.map_congr_left fun i _ => List.map_congr_left fun g _ => ?_
  have hFd : F = sdDark (F 0) (d * (drk.nframes : α)) := by
    funext k
    rw [hF, hgap]
    simp only [sdDark, Nat.add_zero]
    ring
  have h1 : sdRead sci.nframes sci.groupgap F g =
      sdRead sci.nframes sci.groupgap F 0 + (g : α) * (d * (drk.nframes : α) * ((sci.nframes + sci.groupgap : Nat) : α)) := by
    rw [hFd]
    exact sd_read_dark sci.nframes sci.groupgap hs.frames _ _ g
  rw [h1, sd_read_dark sci.nframes sci.groupgap hs.frames a d g, Option.some.injEq]
  ring

/-! ## Examples -/

/-- Two groups of two frames with one dropped frame between them; the source sends 10 per frame, the dark current is 3 plus 2 per frame. -/
def sdExSci : Sci ℚ where
  data := [[some (5 + 3 + 1), some (35 + 3 + 7)]]
  groupdq := [[0, 0]]
  pixeldq := 0
  nframes := 2
  groupgap := 1
  intstart := none

/-- A reference of three frames: shorter than the exposure. -/
def sdExRef : Ref ℚ where
  arr := .d3 [some 3, some 5, some 7] 0
  ngroups := 3
  nframes := 1
  groupgap := 0

example : SdSci sdExSci 1 2 (fun _ k => 0 + 10 * (k : ℚ)) 3 2 := by
  refine ⟨by decide, by decide, by decide, by decide +kernel⟩

example : SdRef sdExRef 3 0 (3 : ℚ) 2 := ⟨by decide, rfl, by decide, by simp only [sdExRef, DarkArr.d3.injEq, and_true]; decide +kernel⟩

example : (doCorrection sdExSci sdExRef).map (fun r => r.out.data) = some [[some 5, some 35]] := by decide +kernel

/-- Science groups of two frames, gap two; the reference has groups of two frames: the dark current 2 per frame is subtracted twice. -/
def sdExSci2 : Sci ℚ where
  data := [[some (5 + 3 + 1), some (45 + 3 + 9)]]
  groupdq := [[0, 0]]
  pixeldq := 0
  nframes := 2
  groupgap := 2
  intstart := none

def sdExRef2 : Ref ℚ where
  arr := .d3 [some 4, some 8, some 12, some 16, some 20, some 24] 0
  ngroups := 6
  nframes := 2
  groupgap := 0

example : SdSci sdExSci2 1 2 (fun _ k => 0 + 10 * (k : ℚ)) 3 2 := by
  refine ⟨by decide, by decide, by decide, by decide +kernel⟩

example : SdRef sdExRef2 6 0 (3 : ℚ) 2 := ⟨by decide, rfl, by decide, by simp only [sdExRef2, DarkArr.d3.injEq, and_true]; decide +kernel⟩

example : totalFrames 2 sdExSci2.nframes sdExSci2.groupgap ≤ 6 := by decide

example : (doCorrection sdExSci2 sdExRef2).map (fun r => r.out.data) = some [[some (5 - 2), some (45 - 2 - 8)]] := by decide +kernel

end Verif.Thm
