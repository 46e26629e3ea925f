import Mathlib.Analysis.SpecialFunctions.Sqrt

/-!
# Velocity aberration

Model of `src/stcal/velocity_aberration.py`, over the real numbers.  The conversion between angles and vectors
(`compute_va_effects`) is in `Verif.Model.Angles`.  Not modelled: logging.
-/

namespace Verif.Aberration

/-- A vector (velocity_aberration.py:48-60). -/
structure Vec where
  x : ℝ
  y : ℝ
  z : ℝ

/-- `np.dot` (velocity_aberration.py:49, 54). -/
def dot (a b : Vec) : ℝ := a.x * b.x + a.y * b.y + a.z * b.z

/-- `p * a + q * b` (velocity_aberration.py:60). -/
def comb (p : ℝ) (a : Vec) (q : ℝ) (b : Vec) : Vec := ⟨p * a.x + q * b.x, p * a.y + q * b.y, p * a.z + q * b.z⟩

/-- `compute_va_effects_vector` (velocity_aberration.py:17-62); `c` is the speed of light. -/
noncomputable def vaEffects (c : ℝ) (v u : Vec) : ℝ × Vec :=
  let beta : Vec := ⟨v.x / c, v.y / c, v.z / c⟩
  let beta2 := dot beta beta
  if beta2 = 0 then (1, u)
  else
    let uBeta := dot u beta
    let igamma := Real.sqrt (1 - beta2)
    let w := comb igamma u (1 + (1 - igamma) * uBeta / beta2) beta
    ((1 + uBeta) / igamma, ⟨w.x / (1 + uBeta), w.y / (1 + uBeta), w.z / (1 + uBeta)⟩)

end Verif.Aberration
