import Mathlib.Algebra.Order.Field.Basic
import Mathlib.Data.List.Basic

/-!
# Sky matching

Model of `src/stcal/skymatch/skymatch.py` and of the sky bookkeeping of `src/stcal/skymatch/skyimage.py`.

Polygons, masks and the statistic are not modelled: what an image measures over its good pixels, or over those in the
overlap with another element of the list, is an arbitrary function of its pixel values (`Env`).  The pseudo-inverse
(`np.linalg.pinv`) is an arbitrary solver of the list of equations.  Logging is left out.
-/

namespace Verif.Sky

variable {α : Type} [Field α] [LinearOrder α]

/-- `SkyImage` (skyimage.py:98-322): pixel values, `sky`, `is_sky_valid`. -/
structure Im (α : Type) where
  data : Nat → α
  sky : α
  valid : Bool

/-- An element of the list given to `skymatch`: a `SkyImage`, or a `SkyGroup` (skyimage.py:325-364) with its own `_sky`. -/
inductive Elem (α : Type) where
  | single (im : Im α)
  | group (sky : α) (ims : List (Im α))

/-- What the images measure: statistic, number of pixels and polygon area (skyimage.py:268-317), `none` standing for the
return values `None, 0, 0.0`.  The arguments are the position of the element, the position of the image in its group (0
for a single image), for `over` the position of the other element, and the pixel values. -/
structure Env (α : Type) where
  whole : Nat → Nat → (Nat → α) → Option (α × α × α)
  over : Nat → Nat → Nat → (Nat → α) → Option (α × α × α)

/-- `SkyImage.calc_sky` (skyimage.py:235-322) from the measurement: sky, weight, area. -/
def imCalc (m : Option (α × α × α)) (sky : α) (delta : Bool) : Option α × α × α :=
  match m with
  | none => (none, 0, 0)
  | some (s, n, a) => (some (if delta then s - sky else s), n, a)

/-- Loop of `SkyGroup.calc_sky` without overlap (skyimage.py:403-421): the smallest sky. -/
def groupMin (l : List (Option α × α × α)) : Option α × α × α :=
  l.foldl (fun (acc x : Option α × α × α) =>
    match x.1, acc.1 with
    | none, _ => acc
    | some _, none => x
    | some s, some w => if w > s then x else acc) (none, 0, 0)

/-- Loop of `SkyGroup.calc_sky` with an overlap (skyimage.py:423-441): the mean weighted by pixel numbers. -/
def groupMean (l : List (Option α × α × α)) : Option α × α × α :=
  let r := l.foldl (fun (acc : α × α × α) (x : Option α × α × α) =>
    match x.1 with
    | some s =>
      if 0 < x.2.1 then (acc.1 + s * x.2.1, acc.2.1 + x.2.1, acc.2.2 + x.2.2) else (acc.1, acc.2.1, acc.2.2 + x.2.2)
    | none => (acc.1, acc.2.1, acc.2.2 + x.2.2)) (0, 0, 0)
  if r.2.1 = 0 ∨ r.2.2 = 0 then (none, r.2.1, r.2.2) else (some (r.1 / r.2.1), r.2.1, r.2.2)

/-- `calc_sky(delta=delta)` of the element at position `e` (skymatch.py:306). -/
def elemWhole (env : Env α) (delta : Bool) (e : Nat) (x : Elem α) : Option α × α × α :=
  match x with
  | .single im => imCalc (env.whole e 0 im.data) im.sky delta
  | .group _ ims => groupMin (ims.zipIdx.map fun p => imCalc (env.whole e p.2 p.1.data) p.1.sky delta)

/-- `calc_sky(overlap=images[e'], delta=delta)` of the element at position `e` (skymatch.py:403, 405). -/
def elemOver (env : Env α) (delta : Bool) (e e' : Nat) (x : Elem α) : Option α × α × α :=
  match x with
  | .single im => imCalc (env.over e 0 e' im.data) im.sky delta
  | .group _ ims => groupMean (ims.zipIdx.map fun p => imCalc (env.over e p.2 e' p.1.data) p.1.sky delta)

/-- The pair `i < j` in `_overlap_matrix` (skymatch.py:401-413): `A[j, i], W[j, i], A[i, j], W[i, j]`, zeros if skipped. -/
def pair (r1 r2 : Option α × α × α) : α × α × α × α :=
  match r1, r2 with
  | (some s1, w1, a1), (some s2, w2, a2) => if a1 = 0 ∨ a2 = 0 then (0, 0, 0, 0) else (s1, w1, s2, w2)
  | _, _ => (0, 0, 0, 0)

/-- The pair `i < j` for a list of elements (skymatch.py:396-415). -/
def pairAt (env : Env α) (delta : Bool) (els : List (Elem α)) (i j : Nat) : α × α × α × α :=
  match els[i]?, els[j]? with
  | some x, some y => pair (elemOver env delta i j x) (elemOver env delta j i y)
  | _, _ => (0, 0, 0, 0)

/-- `A` and `W` of `_overlap_matrix` (skymatch.py:396-415). -/
def matA (env : Env α) (delta : Bool) (els : List (Elem α)) (r c : Nat) : α :=
  if c < r then (pairAt env delta els c r).1 else if r < c then (pairAt env delta els r c).2.2.1 else 0

@[inherit_doc matA]
def matW (env : Env α) (delta : Bool) (els : List (Elem α)) (r c : Nat) : α :=
  if c < r then (pairAt env delta els c r).2.1 else if r < c then (pairAt env delta els r c).2.2.2 else 0

/-- The pairs of images an equation is written for (`is_valid`, skymatch.py:422-423, loops 446-455). -/
def validPairs (n : Nat) (W : Nat → Nat → α) : List (Nat × Nat) :=
  (List.range n).flatMap fun i => ((List.range n).filter fun j =>
    decide (i < j) && decide (0 < W i j) && decide (0 < W j i)).map fun j => (i, j)

/-- One equation: the row of `K` and the entry of `F` (skymatch.py:438, 450-452). -/
def equation (A W : Nat → Nat → α) (p : Nat × Nat) : (Nat → α) × α :=
  let wm := 1 / 2 * (W p.1 p.2 + W p.2 p.1)
  (fun k => if k = p.1 then wm else if k = p.2 then -wm else 0, wm * (A p.2 p.1 - A p.1 p.2))

/-- `_find_optimum_sky_deltas` (skymatch.py:418-473): `solve` stands for `pinv(K) @ F`; an image in no equation has no
delta (`none`: NaN). -/
def findDeltas (solve : Nat → List ((Nat → α) × α) → Nat → α) (n : Nat) (A W : Nat → Nat → α) (i : Nat) : Option α :=
  let ps := validPairs n W
  if ps.any fun p => p.1 = i || p.2 = i then some (solve n (ps.map (equation A W)) i) else none

/-- Largest and smallest number of a list (skymatch.py:275). -/
def listMin (l : List α) : Option α := l.min?
@[inherit_doc listMin]
def listMax (l : List α) : Option α := l.max?

/-- The shift of the deltas (skymatch.py:270-281). -/
def shift (matchDown : Bool) (ds : List (Option α)) : List (Option α) :=
  match (if matchDown then listMin (ds.filterMap id) else listMax (ds.filterMap id)) with
  | none => ds
  | some r => ds.map fun d => d.map fun x => x - r

/-- Application to one image (skymatch.py:353-393). -/
def applyIm (sub : Bool) (s dsky : α) (valid : Bool) (im : Im α) : Im α :=
  { data := if sub then fun p => im.data p - s else im.data
    sky := im.sky + dsky
    valid := valid }

/-- One round of `_apply_sky` (skymatch.py:332-393) with the group's `sky` setter (skyimage.py:350-355).  A group has at
least one image. -/
def applyOne (doGlobal sub : Bool) (x : Elem α) (sky : Option α) : Elem α :=
  let old := match x with
    | .single im => im.valid
    | .group _ ims => (ims.head?.map fun im => im.valid).getD false
  let valid := if doGlobal then (if sky.isNone then old else true) else sky.isSome
  let s := sky.getD 0
  match x with
  | .single im => .single (applyIm sub s s valid im)
  | .group g ims => .group (g + s) (ims.map (applyIm sub s (g + s - g) valid))

/-- `_apply_sky` (skymatch.py:332-393). -/
def applySky (doGlobal sub : Bool) (els : List (Elem α)) (skys : List (Option α)) : List (Elem α) :=
  List.zipWith (applyOne doGlobal sub) els skys

/-- The first phase (skymatch.py:264-284). -/
def matchPhase (env : Env α) (solve : Nat → List ((Nat → α) × α) → Nat → α) (matchDown sub : Bool) (els : List (Elem α)) :
    List (Elem α) :=
  let n := els.length
  let ds := (List.range n).map (findDeltas solve n (matA env (!sub) els) (matW env (!sub) els))
  applySky false sub els (shift matchDown ds)

/-- One step of the search for the smallest sky (skymatch.py:308-309); `none` is the `TypeError` of `None < minsky`. -/
def minStep (acc : Option (Option α)) (sky : Option α) : Option (Option α) :=
  match acc with
  | none => none
  | some none => some sky
  | some (some m) =>
    match sky with
    | none => none
    | some s => some (some (if s < m then s else m))

/-- Sky values of all elements (skymatch.py:304-307). -/
def skyValues (env : Env α) (sub : Bool) (els : List (Elem α)) : List (Option α) :=
  els.zipIdx.map fun p => (elemWhole env (!sub) p.2 p.1).1

/-- The second phase (skymatch.py:296-322); `none` is an exception. -/
def wholePhase (env : Env α) (doGlobal sub : Bool) (els : List (Elem α)) : Option (List (Elem α)) :=
  let skys := skyValues env sub els
  if doGlobal then
    (skys.foldl minStep (some none)).map fun m => applySky true sub els (List.replicate els.length m)
  else some (applySky false sub els skys)

/-- The four methods (skymatch.py:231-237). -/
inductive Method where
  | loc
  | glob
  | mat
  | globMat
deriving DecidableEq

/-- `do_match` (skymatch.py:236). -/
def Method.doMatch : Method → Bool
  | .mat => true
  | .globMat => true
  | _ => false

/-- `do_global` (skymatch.py:237). -/
def Method.doGlobal : Method → Bool
  | .glob => true
  | .globMat => true
  | _ => false

/-- `skymatch` (skymatch.py:21-329) for a list of at least one image and a supported method name; `none` is an
exception. -/
def skymatch (env : Env α) (solve : Nat → List ((Nat → α) × α) → Nat → α) (m : Method) (matchDown sub : Bool)
    (els : List (Elem α)) : Option (List (Elem α)) :=
  let els1 := if m.doMatch then matchPhase env solve matchDown sub els else els
  if m.doGlobal || !m.doMatch then wholePhase env m.doGlobal sub els1 else some els1

end Verif.Sky
