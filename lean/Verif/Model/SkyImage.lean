import Mathlib.Algebra.Order.Floor.Ring
import Verif.Model.Sky

/-!
# Sky images: bounding polygon and pixels of a measurement

Model of `src/stcal/skymatch/skyimage.py`: the outline of an image and the pixels `calc_sky` uses.  Polygons on the sphere
(`spherical_geometry`), the filling of a polygon (`gwcs.region.Polygon.scan`), the transforms and the statistic are parameters.
-/

namespace Verif.SkyImage

/-! ### Bounding polygon -/

section Polygon
variable {α : Type} [Field α] [LinearOrder α]

/-- `np.linspace(a, b, n)` for `n` of at least two. -/
def linspace (a b : α) (n : Nat) : List α := (List.range n).map fun (k : Nat) => a + (b - a) * (k : α) / ((n : α) - 1)

/-- Number of points along a side of `n` pixels (skyimage.py:50-55); `none` is the division by zero. -/
def nint [FloorRing α] (step : Option α) (n : Nat) : Option Nat :=
  match step with
  | none => some 2
  | some s => if s = 0 then none else some (max 2 ⌈((n : α) + 1) / s⌉).toNat

/-- The border in pixel coordinates (skyimage.py:57-85): bottom, right, top and left, and the first point again. -/
def border (nx ny kx ky : Nat) : List (α × α) :=
  let h : α := 1 / 2
  let xs := linspace (-h) ((nx : α) - h) kx
  let ys := ((linspace (-h) ((ny : α) - h) ky).drop 1).dropLast
  let b := xs.map (fun x => (x, -h)) ++ ys.map (fun y => ((nx : α) - h, y)) ++ xs.reverse.map (fun x => (x, (ny : α) - h)) ++
    ys.reverse.map (fun y => (-h, y))
  b ++ b.take 1

/-- `_calc_bounding_polygon` (skyimage.py:20-95): the vertices handed to `SphericalPolygon.from_radec`.  The last is overwritten
by the first (92-93). -/
def outline {β : Type} [FloorRing α] (nx ny : Nat) (step : Option α) (fwd : α × α → β) : Option (List β) :=
  (nint step nx).bind fun kx => (nint step ny).map fun ky =>
    let r := (border nx ny kx ky).map fwd
    r.dropLast ++ r.take 1

end Polygon

/-! ### Pixels of a measurement -/

section Pixels
variable {α : Type} [Field α] [LinearOrder α]

/-- What `spherical_geometry`, `gwcs` and the statistic do: intersection of two polygons (`none`: `MalformedPolygonError`), area,
rings of vertices on the sky (`to_radec`), whether a pixel (column, row) is filled for a polygon given by vertices in pixel
coordinates, the statistic with the number of pixels (`none`: `ValueError`; a value `none` is not finite). -/
structure Geo (P S α : Type) where
  inter : P → P → Option P
  area : P → α
  rings : P → List (List S)
  fill : List (α × α) → Nat × Nat → Bool
  stat : List α → Option (Option α × Nat)

/-- A `SkyImage` (skyimage.py:167-190) apart from pixel values and sky: shape, polygon, good pixels, inverse transform.  Pixel `p` is
in column `p % nx` and row `p / nx`. -/
structure Frame (P S α : Type) where
  ny : Nat
  nx : Nat
  poly : P
  mask : Nat → Bool
  inv : S → α × α

/-- Elements of the list given to `skymatch`. -/
inductive Part (P S α : Type) where
  | single (f : Frame P S α)
  | group (fs : List (Frame P S α))

variable {P S : Type}

/-- `SkyImage.intersection` (skyimage.py:192-233): after an error a copy of the own polygon. -/
def intersection (g : Geo P S α) (p q : P) : P := (g.inter p q).getD p

/-- Area and rings of an overlap (skyimage.py:274-288). -/
def region (g : Geo P S α) (p : P) : Part P S α → α × List (List S)
  | .single f => (|g.area (intersection g p f.poly)|, g.rings (intersection g p f.poly))
  | .group fs => fs.foldl (fun acc f =>
      let i := intersection g p f.poly
      let a := |g.area i|
      if a = 0 then acc else (acc.1 + a, acc.2 ++ g.rings i)) (0, [])

/-- The loop that fills the mask (skyimage.py:293-302); `p` is a pixel. -/
def fillMask (g : Geo P S α) (f : Frame P S α) (rings : List (List S)) (p : Nat) : Bool :=
  rings.foldl (fun m r => if r.length < 4 then m else m || g.fill (r.map f.inv) (p % f.nx, p / f.nx)) false

/-- The pixel values under a mask, row by row (skyimage.py:269, 305). -/
def select (f : Frame P S α) (mask : Nat → Bool) (data : Nat → α) : List α :=
  ((List.range (f.ny * f.nx)).filter mask).map data

/-- The statistic with its error handling (skyimage.py:310-317). -/
def finish (g : Geo P S α) (data : List α) (area : α) : Option (α × α × α) :=
  match g.stat data with
  | none => none
  | some (none, _) => none
  | some (some s, n) => some (s, (n : α), area)

/-- `SkyImage.calc_sky` without an overlap, before the sky is subtracted (skyimage.py:268-270, 310-317). -/
def whole (g : Geo P S α) (f : Frame P S α) (data : Nat → α) : Option (α × α × α) :=
  finish g (select f f.mask data) |g.area f.poly|

/-- `SkyImage.calc_sky` with an overlap, before the sky is subtracted (skyimage.py:271-317). -/
def over (g : Geo P S α) (f : Frame P S α) (t : Part P S α) (data : Nat → α) : Option (α × α × α) :=
  let r := region g f.poly t
  if r.1 = 0 then none
  else
    let l := select f (fun p => fillMask g f r.2 p && f.mask p) data
    if l.length < 1 then none else finish g l r.1

/-- Image number `k` of an element (0 for a single image). -/
def Part.frame (t : Part P S α) (k : Nat) : Option (Frame P S α) :=
  match t with
  | .single f => if k = 0 then some f else none
  | .group fs => fs[k]?

/-- The measurements of `skymatch` (see `Verif.Sky.Env`) for a list of elements. -/
def env (g : Geo P S α) (parts : List (Part P S α)) : Sky.Env α where
  whole e k data := parts[e]?.bind fun t => (t.frame k).bind fun f => whole g f data
  over e k e' data := parts[e]?.bind fun t => parts[e']?.bind fun t' => (t.frame k).bind fun f => over g f t' data

end Pixels

end Verif.SkyImage
