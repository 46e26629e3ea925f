import Verif.Model.Jump

/-!
# Weight threshold of outlier detection

Model of `compute_weight_threshold` (`src/stcal/outlier_detection/utils.py:54-86`).

A weight is `Option α`; `none` stands for NaN and for the infinities.  `sigma_clip` is astropy's, modelled from its
documentation: with its default centre (median) and deviation (population standard deviation), with `sigma=3` and
`maxiters=5`.
-/

namespace Verif.Outlier

variable {α : Type} [Field α] [LinearOrder α]

/-- `weight[np.isfinite(weight) & (weight != 0)]` (utils.py:77). -/
def usableWeights (w : List (Option α)) : List α := (w.filterMap id).filter fun x => decide (x ≠ 0)

/-- `np.mean` of a list that is not empty (utils.py:75). -/
def meanOf (l : List α) : α := l.sum / l.length

/-- Population variance (the square of the deviation used by `sigma_clip`) (utils.py:76). -/
def varOf (l : List α) : α := (l.map fun x => (x - meanOf l) ^ 2).sum / l.length

/-- One iteration of `sigma_clip` (utils.py:76-82): the values at most three standard deviations from the median are
kept.  The comparison with the standard deviation is written with squares. -/
def clipRound (l : List α) : List α :=
  match Verif.Jump.nanmedian (l.map some) with
  | none => []
  | some m => l.filter fun x => decide ((x - m) ^ 2 ≤ 9 * varOf l)

/-- `sigma_clip` with at most `k` iterations; it stops when nothing was removed (utils.py:76-82). -/
def sigmaClip : Nat → List α → List α
  | 0, l => l
  | k + 1, l => if (clipRound l).length = l.length then clipRound l else sigmaClip k (clipRound l)

/-- `compute_weight_threshold` (utils.py:54-86); `none` is NaN, the mean of an empty array. -/
def weightThreshold (w : List (Option α)) (maskpt : α) : Option α :=
  let kept := sigmaClip 5 (usableWeights w)
  if kept = [] then none else some (meanOf kept * maskpt)

end Verif.Outlier
