import Verif.Model.Pixmap
import Verif.Model.Outlier

/-!
# Blotting

Model of `gwcs_blot` (outlier_detection/utils.py:219-297).  drizzle's `blot_image` is a parameter: for a position in the median image it gives the
interpolated value, NaN (`some none`), or nothing for positions outside the image.  Not modelled: rounding to float32 (line 280) and
logging (276-278).
-/

namespace Verif.Blot

open Verif.Pixmap Verif.Outlier

variable {α : Type} [Field α] [LinearOrder α] [FloorRing α]

/-- A coordinate after `pixmap[np.isnan(pixmap)] = -1` (utils.py:286).  Simplified: infinite coordinates are replaced as well. -/
def coord (x : Option α) : α := x.getD (-1)

/-- The image made by `blot_image` (utils.py:280, 288-295): pixels whose position lies outside the median image keep the fill value. -/
def blotImage (interp : α × α → Option (Option α)) (fill : Option α) (map : Nat → Nat → Option α × Option α) : Arr2 α := fun r c =>
  (interp (coord (map r c).1, coord (map r c).2)).getD fill

/-- `gwcs_blot` (utils.py:220-297); `none` is an exception.  The map is from the pixels of the image to those of the median, with the default
`disable_bbox="to"` (line 275). -/
def gwcsBlot (interp : α × α → Option (Option α)) (spline : Nat → List α → List α → List (List α) → α → α → α)
    (T : Option (Box α) → Option (Box α) → Option (α × α → Option α × Option α)) (boxBlot boxMedian : Option (Box α))
    (shape : Nat × Nat) (fill : Option α) (step : α) (order : Nat) : Option (Arr2 α) :=
  (calcPixmap spline T boxBlot boxMedian none (some shape) "to" step order).map.map fun m => blotImage interp fill m.2

end Verif.Blot
