import Verif.Model.SRegion
import Verif.Model.Simplify

/-!
# Outlines of images and of combined images

Model of `compute_s_region_imaging`, `wcs_bbox_from_shape` (alignment/util.py) and `combine_sregions`, `combine_footprints`,
`_intersect_with_bbox`, `_convert_to_array` (alignment/resample_utils.py).  The geometry itself (package `shapely`) and the transforms
are parameters.
-/

namespace Verif.Combine
open Verif.Resample (Fl)
open Verif.SRegion
open Verif.Simplify

section
variable {α : Type} [Field α] [LinearOrder α] [FloorRing α]

/-! ## One image -/

/-- `wcs_bbox_from_shape` (util.py:594-609): intervals of x and y; `none` is the IndexError for fewer than two axes. -/
def bboxFromShape (shape : List Nat) : Option ((α × α) × (α × α)) :=
  match shape.reverse with
  | nx :: ny :: _ => some ((-(1 / 2), (nx : α) - 1 / 2), (-(1 / 2), (ny : α) - 1 / 2))
  | _ => none

/-- `np.mod(x, 360)` (util.py:588). -/
def modTurn : Fl α → Fl α
  | .num x => .num (x - 360 * ⌊x / 360⌋)
  | _ => .nan

/-- `compute_s_region_imaging` (util.py:543-591): the keyword, and the bounding box of the WCS afterwards.  `footprint` is the vertices
of the WCS on the sky for a bounding box (gwcs). -/
def sregionImaging (bbox : Option ((α × α) × (α × α))) (shape : Option (List Nat))
    (footprint : (α × α) × (α × α) → List (Fl α × Fl α)) : Keyword × Option ((α × α) × (α × α)) :=
  match bbox, shape with
  | some b, _ => (keyword ((footprint b).map fun v => (modTurn v.1, v.2)), some b)
  | none, some s =>
    match bboxFromShape s with
    | some b => (keyword ((footprint b).map fun v => (modTurn v.1, v.2)), some b)
    | none => (.error, none)
  | none, none => (.error, none)

/-! ## Several images -/

/-- Result of a geometric operation: a polygon (its exterior ring, closed), several polygons, or something else (a point, a line, a
collection, or nothing) (resample_utils.py:137-140, 167). -/
inductive Geom (α : Type) where
  | polygon (ring : List (α × α))
  | multi (rings : List (List (α × α)))
  | other

/-- Constants of `_simplify_by_angle` (resample_utils.py:173, 217-219), the threshold angle as tangent. -/
structure Tol (α : Type) where
  thresh : α
  t : α
  eps : α

/-- `_convert_to_array` of a polygon with this closed ring (resample_utils.py:101-118). -/
def convert (k : Tol α) (ring : List (α × α)) : List (α × α) := simplify k.thresh k.t k.eps ring.dropLast

/-- `shapely.geometry.Polygon(points)` (resample_utils.py:135, 163, 166): one or two points are a ValueError. -/
def makes (pts : List (α × α)) : Bool := pts.length = 0 || 3 ≤ pts.length

/-- `combine_footprints` (resample_utils.py:121-144); `union` is `shapely.unary_union`.  `none` is an exception. -/
def combineFootprints (k : Tol α) (union : List (List (α × α)) → Geom α) (fps : List (List (α × α))) :
    Option (List (List (α × α))) :=
  if fps.all makes then
    match union fps with
    | .polygon r => some [convert k r]
    | .multi rs => some (rs.map (convert k))
    | .other => none
  else none

/-- `_intersect_with_bbox` (resample_utils.py:147-170); `inter` is `shapely.intersection`, `none` if it is empty.  The result is `none` for an
exception: a point set that is no polygon, or an intersection without an exterior (`polygon.exterior` in line 115). -/
def intersectBox (k : Tol α) (inter : List (α × α) → List (α × α) → Option (Geom α)) (polys : List (List (α × α)))
    (box : List (α × α)) : Option (List (List (α × α))) :=
  if makes box then
    (polys.mapM fun p =>
      if makes p then
        match inter p box with
        | none => some []
        | some (.polygon r) => some [convert k r]
        | some _ => none
      else none).map List.flatten
  else none

/-- `np.array` of the footprints and `reshape(-1, 2)` (resample_utils.py:41-49): number of vertices of each, and all vertices; `none` is
the ValueError if the numbers differ. -/
def stack (fps : List (List (α × α))) : Option (Nat × List (α × α)) :=
  match fps with
  | [] => some (0, [])
  | f :: l => if l.all fun g => decide (g.length = f.length) then some (f.length, fps.flatten) else none

/-- `reshape(footprints.shape)` (resample_utils.py:52): `m` footprints of `n` vertices. -/
def unstack (m n : Nat) (flat : List (α × α)) : List (List (α × α)) :=
  (List.range m).map fun i => (flat.drop (i * n)).take n

/-- The footprint of an input, a string or a footprint (resample_utils.py:43). -/
def footprintOf : List Char ⊕ List (α × α) → Option (List (α × α))
  | .inl t => parse t
  | .inr f => some f

/-- `combine_sregions` (resample_utils.py:11-76).  Coordinates are finite; `fwd` and `inv` are the transforms between pixels and
sky.  `none` is an exception. -/
def combineSregions (k : Tol α) (union : List (List (α × α)) → Geom α) (inter : List (α × α) → List (α × α) → Option (Geom α))
    (fwd inv : α × α → α × α) (inputs : List (List Char ⊕ List (α × α))) (box : Option (List (α × α))) : Option (List Char) :=
  match inputs.mapM footprintOf with
  | none => none
  | some fps =>
    match stack fps with
    | none => none
    | some (n, flat) =>
      match combineFootprints k union (unstack fps.length n (flat.map inv)) with
      | none => none
      | some polys =>
        match box with
        | none => some (polygonsText (polys.map fun p => p.map fun v => (.num (fwd v).1, .num (fwd v).2)))
        | some b =>
          match intersectBox k inter polys (b.map inv) with
          | none => none
          | some [] => none
          | some final => some (polygonsText (final.map fun p => p.map fun v => (.num (fwd v).1, .num (fwd v).2)))

end

end Verif.Combine
