import Verif.Model.Saturation

/-!
# `flag_saturated_pixels` with 4-D reference arrays

`src/stcal/saturation/saturation.py:12-265` accepts a saturation threshold, reference DQ and bias that depend on integration
and group (striped readout).  `Verif.Model.Saturation` is the 2-D variant; the steps are shared.
-/

namespace Verif.Saturation

open Verif.Dq

section
variable {α : Type*} [Field α] [LinearOrder α]

/-- The 4-D reference arrays, indexed by integration, group, row and column (`saturation.py:33-37,52-58,78-81`). -/
structure Stripes (α : Type*) where
  /-- `sat_thresh`, `none` is NaN -/
  satThresh : Nat → Nat → Img (Option α)
  satDq : Nat → Nat → Img Nat
  bias : Nat → Nat → Img α

/-- The planes `[i, g, :, :]` of the reference arrays as 2-D parameters.  The masks and thresholds of `saturation.py:98-108`
are elementwise, so those of the plane are the plane of those of the array. -/
def Params.plane (p : Params α) (s : Stripes α) (i g : Nat) : Params α :=
  { p with satThresh := s.satThresh i g, satDq := s.satDq i g, bias := s.bias i g }

/-- The forward loop over the first `k` groups of integration `i`, `saturation.py:120-150` with line 131: group `g` is
compared with plane `g`. -/
def forward4 (p : Params α) (s : Stripes α) (i : Nat) (data : Nat → Img (Option α)) (gdq : Nat → Img Nat) :
    Nat → Img Bool × (Nat → Img Nat)
  | 0 => (fun _ _ => false, gdq)
  | k + 1 => forwardStep (p.plane s i k) data k (forward4 p s i data gdq k)

/-- The backward loop over groups `k-1, …, 0`, `saturation.py:156-204` with lines 184-189. -/
def backward4 (p : Params α) (s : Stripes α) (i : Nat) (rp : List (List α)) (data : Nat → Img (Option α)) :
    Nat → (Nat → Img Nat) → (Nat → Img Nat)
  | 0, q => q
  | k + 1, q => backward4 p s i rp data k (backwardStep (p.plane s i k) rp data k q)

/-- All passes over integration `i`, `saturation.py:114-242`; the second-group pass uses plane 0 of the threshold and of the
bias (lines 209-215). -/
def flagIntegration4 (p : Params α) (s : Stripes α) (i : Nat) (data : Nat → Img (Option α)) (gdq : Nat → Img Nat) :
    Nat → Img Nat :=
  let q := (forward4 p s i data gdq p.ngroups).2
  match p.readPattern with
  | none => q
  | some rp => group2 (p.plane s i 0) rp data (backward4 p s i rp data (p.ngroups - 1) q)

/-- The loop over integrations, `saturation.py:114`. -/
def flagAll4 (p : Params α) (s : Stripes α) (data : Nat → Nat → Img (Option α)) (gdq : Nat → Nat → Img Nat) :
    Nat → Nat → Nat → Img Nat
  | 0 => gdq
  | k + 1 =>
    let q := flagAll4 p s data gdq k
    fun i => if i = k then flagIntegration4 p s k (data k) (q k) else q i

/-- `flag_saturated_pixels` with 4-D reference arrays, `saturation.py:91-265`; `pdq` is 4-D too (line 263), and the zero frame is
compared with plane 0 (line 248).  The 2-D fields of `p` are not used. -/
def flagSaturatedPixels4 (p : Params α) (s : Stripes α) (nints : Nat) (data : Nat → Nat → Img (Option α))
    (gdq pdq : Nat → Nat → Img Nat) (z : Option (Nat → Img (Option α))) :
    Option ((Nat → Nat → Img Nat) × (Nat → Nat → Img Nat) × Option (Nat → Img (Option α))) :=
  if 0 < nints ∧ (0 < p.ngroups ∨ z.isSome) ∧ adjacentRaises p.nrows p.ncols p.nGrow then none
  else some (flagAll4 p s data gdq nints, fun i g => pixelDq (p.plane s i g) (pdq i g),
    z.map fun zf i => if i < nints then zeroFrame (p.plane s i 0) (zf i) else zf i)

/-- The caller's `sat_thresh` and `sat_dq` after the call: `saturation.py:102` and `108` assign into the arrays passed in, so the
caller sees the changes. -/
def Params.overwritten (p : Params α) : Params α :=
  { p with satThresh := fun r c => some (p.thresh r c), satDq := p.satDq' }

end
end Verif.Saturation
