import Verif.Model.Jump

/-!
# Snowballs and showers (`src/stcal/jump/jump.py`)

Labelling of connected regions and their moments (`_sk_filter_areas`, lines
1294-1330, scikit-image) are in `Verif.Region`, and the statistics that detect showers
(lines 812-845) are in `Verif.Shower`: here the regions found are an arbitrary function of the DQ plane
(`Env.findSat`, `Env.findJump`), respectively an arbitrary list.  Everything that
is done with the regions afterwards is modelled.
-/

namespace Verif.Snowball

open Verif.Jump (Img)

variable {α : Type} [Field α] [LinearOrder α]

/-- One region `((cen_x, cen_y), (axis0, axis1), theta)` (jump.py:1308-1315). -/
structure Ellipse (α : Type) where
  cx : α
  cy : α
  ax0 : α
  ax1 : α
  theta : α
deriving DecidableEq

/-- The parameters used (fields of `JumpData`) and the numerical functions that are
left abstract: `rnd` is Python's `round`, `cos`/`sin` are taken at an angle in
degrees (fields of jump_class.py:10-110). -/
structure Env (α : Type) where
  jump : Nat
  sat : Nat
  dnu : Nat
  ref : Nat
  satRequired : Bool
  expandFactor : α
  satExpand : α
  minSatRadius : α
  maxWidth : α
  edgeSize : α
  maskPersist : Bool
  persistGrps : Nat
  maxShower : α
  rnd : α → Int
  cos : α → α
  sin : α → α
  /-- regions of a plane with at least the minimum saturated area -/
  findSat : Img Nat → List (Ellipse α)
  /-- regions of a plane with at least the minimum jump area -/
  findJump : Img Nat → List (Ellipse α)

/-! ## Drawing -/

/-- jump.py:999-1012, `compute_axes`: the expanded semi-axes. -/
def computeAxes (e : Env α) (byRatio : Bool) (el : Ellipse α) (expansion : α) : Int × Int :=
  let a : α × α :=
    if byRatio then
      if el.ax1 < el.ax0 then (el.ax0 + (expansion - 1) * el.ax1, el.ax1 * expansion)
      else (el.ax0 * expansion, el.ax1 + (expansion - 1) * el.ax0)
    else (el.ax0 + expansion, el.ax1 + expansion)
  (e.rnd (min a.1 e.maxWidth / 2), e.rnd (min a.2 e.maxWidth / 2))

/-- `skimage.draw.ellipse` relative to the centre, with row radius `rr`, column
radius `rc` and rotation with cosine `cs` and sine `sn` (library behaviour, taken
from its documentation; called from jump.py:1284-1291 with `axes[1]`, `axes[0]`). -/
def inEllipse (rr rc : α) (cs sn : α) (dr dc : α) : Bool :=
  decide (((dr * cs + dc * sn) / rr) ^ 2 + ((dr * sn - dc * cs) / rc) ^ 2 < 1)

/-- The rectangle to which `skimage.draw.ellipse` confines its drawing (library behaviour, called from jump.py:1284-1291 after
reducing the angle to a sine that is not negative).  It contains the ellipse unless a radius is negative, which happens: the
axes of a region one pixel wide are its axis lengths less one (jump.py:1325-1326). -/
def inBox (rr rc : α) (cs sn : α) (dr dc : α) : Bool :=
  decide (|dr| ≤ |rr * cs| + rc * |sn|) && decide (|dc| ≤ rr * |sn| + |rc * cs|)

/-- jump.py:492-506: the window `(iy1, iy2, ix1, ix2)` of the sub-image. -/
def window (e : Env α) (cx cy axis1 axis2 : α) (nrows ncols : Nat) : Int × Int × Int × Int :=
  let yc := e.rnd cx
  let xc := e.rnd cy
  let h := max (e.rnd (axis1 / 2)) (e.rnd (axis2 / 2)) + 2
  (max (xc - h) 0, min (xc + h + 1) nrows, max (yc - h) 0, min (yc + h + 1) ncols)

/-- jump.py:462-514, `ellipse_subim` and 1282-1291, `_sk_ellipse`, placed into the
full image: pixel `(r, c)` is drawn if it lies in the window and its position in
the sub-image lies in the ellipse around the shifted centre. -/
def drawn (e : Env α) (el : Ellipse α) (axis1 axis2 : α) (nrows ncols : Nat) : Img Bool :=
  fun r c =>
    let yc := e.rnd el.cx
    let xc := e.rnd el.cy
    let w := window e el.cx el.cy axis1 axis2 nrows ncols
    let iy1 := w.1
    let iy2 := w.2.1
    let ix1 := w.2.2.1
    let ix2 := w.2.2.2
    let a1 := e.rnd (axis1 / 2)
    let a2 := e.rnd (axis2 / 2)
    decide (iy1 ≤ r ∧ (r : Int) < iy2 ∧ ix1 ≤ c ∧ (c : Int) < ix2) &&
      decide (a2 ≠ 0 ∧ a1 ≠ 0) &&
      -- row and column inside the sub-image, relative to the shifted centre
      inBox (a2 : α) (a1 : α) (e.cos el.theta) (e.sin el.theta)
        ((((r : Int) - iy1) - (xc - iy1) : Int) : α) ((((c : Int) - ix1) - (yc - ix1) : Int) : α) &&
      inEllipse (a2 : α) (a1 : α) (e.cos el.theta) (e.sin el.theta)
        ((((r : Int) - iy1) - (xc - iy1) : Int) : α) ((((c : Int) - ix1) - (yc - ix1) : Int) : α)

/-! ## Expansion of jumps -/

/-- DQ cube of one integration: group, row, column (jump.py:517-593). -/
abbrev Cube := Nat → Img Nat

/-- jump.py:586-591, body of the group loop of `extend_ellipses`; the drawn
ellipse loses the pixels saturated in this group and keeps the loss afterwards. -/
def extendStep (e : Env α) (s : Cube × Img Bool) (g : Nat) : Cube × Img Bool :=
  let je : Img Bool := fun r c => s.2 r c && decide (s.1 g r c &&& e.sat ≠ e.sat)
  (fun g' r c => if g' = g ∧ je r c = true then s.1 g' r c ||| e.jump else s.1 g' r c, je)

/-- jump.py:586-591: one ellipse, groups `grp .. min(grp+num+1, ngroups)-1`. -/
def extendMask (e : Env α) (ngroups grp num : Nat) (mask : Img Bool) (gdq : Cube) : Cube :=
  ((List.range' grp (min (grp + num + 1) ngroups - grp)).foldl (extendStep e) (gdq, mask)).1

/-- jump.py:517-593, `extend_ellipses`. -/
def extendEllipses (e : Env α) (ngroups nrows ncols grp num : Nat) (byRatio : Bool) (expansion : α)
    (els : List (Ellipse α)) (gdq : Cube) : Cube :=
  els.foldl (fun g el =>
    let axes := computeAxes e byRatio el expansion
    extendMask e ngroups grp num
      (drawn e el ((axes.1 : α) * 2) ((axes.2 : α) * 2) nrows ncols) g) gdq

/-! ## Expansion of saturation -/

/-- jump.py:428-457: one ellipse of `extend_saturation`; the second component is
`persist_jumps` of the integration. -/
def extendSatOne (e : Env α) (nrows ncols grp : Nat) (s : Cube × Img Nat) (el : Ellipse α) :
    Cube × Img Nat :=
  if min el.ax1 el.ax0 > e.minSatRadius then
    let axis1 := min (el.ax0 + e.satExpand) e.maxWidth
    let axis2 := min (el.ax1 + e.satExpand) e.maxWidth
    let m := drawn e el axis1 axis2 nrows ncols
    let pm := drawn e el el.ax0 el.ax1 nrows ncols
    (fun g r c => if grp ≤ g ∧ m r c = true then e.sat else s.1 g r c,
     fun r c => if pm r c = true then e.jump else s.2 r c)
  else s

/-- jump.py:397-459, `extend_saturation`. -/
def extendSaturation (e : Env α) (nrows ncols grp : Nat) (els : List (Ellipse α)) (gdq : Cube)
    (persist : Img Nat) : Cube × Img Nat :=
  els.foldl (extendSatOne e nrows ncols grp) (gdq, persist)

/-! ## Snowballs -/

/-- jump.py:771-776, `near_edge`, with the thresholds of 670-671: both
coordinates are compared with the number of rows. -/
def nearEdge (e : Env α) (nrows : Nat) (j : Ellipse α) : Bool :=
  let high := max 0 ((nrows : α) - e.edgeSize)
  decide (j.cx < e.edgeSize) || decide (j.cy < e.edgeSize) || decide (j.cx > high) ||
    decide (j.cy > high)

/-- jump.py:723-742, `point_inside_ellipse`.  A zero axis makes the float quotient
infinite or NaN, so the comparison is false. -/
def pointInside (e : Env α) (px py : α) (el : Ellipse α) : Bool :=
  let cs := e.cos (180 - el.theta)
  let sn := e.sin (180 - el.theta)
  let xc := px - el.cx
  let yc := py - el.cy
  let xt := xc * cs - yc * sn
  let yt := xc * sn + yc * cs
  let major := (if el.ax1 ≥ el.ax0 then el.ax1 else el.ax0) / 2
  let minor := (if el.ax1 ≥ el.ax0 then el.ax0 else el.ax1) / 2
  decide (major ≠ 0 ∧ minor ≠ 0) && decide (xt ^ 2 / major ^ 2 + yt ^ 2 / minor ^ 2 ≤ 1)

/-- jump.py:682-684 and 687-689: add the jump for each saturated region whose
centre it contains, once. -/
def addIfCore (e : Env α) (j : Ellipse α) (acc : List (Ellipse α)) (s : Ellipse α) :
    List (Ellipse α) :=
  if pointInside e s.cx s.cy j && decide (j ∉ acc) then acc ++ [j] else acc

/-- jump.py:675-689: the selection of snowballs. -/
def selectSnowballs (e : Env α) (nrows ngroups group : Nat)
    (jumps sats nextSats : List (Ellipse α)) : List (Ellipse α) :=
  jumps.foldl (fun acc j =>
    if nearEdge e nrows j then acc ++ [j]
    else
      let acc1 := sats.foldl (addIfCore e j) acc
      if group < ngroups - 1 then nextSats.foldl (addIfCore e j) acc1 else acc1) []

/-- jump.py:338-350 (one of the products): saturated in `cur`, not in `prev`. -/
def newSat (e : Env α) (cur prev : Img Nat) : Img Nat :=
  fun r c => (cur r c &&& e.sat) * (if prev r c &&& e.sat = 0 then 1 else 0)

/-- DQ array: integration, group, row, column (jump.py:307-394). -/
abbrev Cube4 := Nat → Cube

/-- Loop state of `flag_large_events`: DQ array, `persist_jumps`, `next_new_sat`
(`none` while the Python variable is unbound) (jump.py:335-394). -/
structure St where
  gdq : Cube4
  persist : Nat → Img Nat
  next : Option (Img Nat)

/-- jump.py:338-381: one group of one integration; `none` is the
UnboundLocalError raised by line 352 if `next_new_sat` was never assigned. -/
def flagGroup (e : Env α) (ngrps nrows ncols intg group : Nat) (s : St) : Option St :=
  let cur := s.gdq intg group
  let ns := newSat e cur (s.gdq intg (group - 1))
  let nx := if group < ngrps - 1 then some (newSat e (s.gdq intg (group + 1)) cur) else s.next
  match nx with
  | none => none
  | some nextNew =>
    let nextSats := e.findSat (fun r c => nextNew r c &&& e.sat)
    let sats := e.findSat (fun r c => ns r c &&& e.sat)
    let jumps := e.findJump (fun r c => cur r c &&& e.jump)
    let r : Cube × Img Nat × List (Ellipse α) :=
      if e.satRequired then
        let snow := selectSnowballs e nrows ngrps group jumps sats nextSats
        let x := extendSaturation e nrows ncols group sats (s.gdq intg) (s.persist intg)
        (x.1, x.2, snow)
      else (s.gdq intg, s.persist intg, jumps)
    let g' := extendEllipses e ngrps nrows ncols group 0 true e.expandFactor r.2.2 r.1
    some { gdq := fun i => if i = intg then g' else s.gdq i
           persist := fun i => if i = intg then r.2.1 else s.persist i
           next := nx }

/-- The sequence of (integration, group) pairs of lines 336-337 (jump.py:336-337). -/
def schedule (nints ngrps : Nat) : List (Nat × Nat) :=
  (List.range nints).flatMap (fun i => (List.range' 1 (ngrps - 1)).map (fun g => (i, g)))

/-- jump.py:336-381: all integrations and groups. -/
def flagLoop (e : Env α) (ngrps nrows ncols : Nat) : List (Nat × Nat) → St → Option St
  | [], s => some s
  | q :: qs, s =>
    match flagGroup e ngrps nrows ncols q.1 q.2 s with
    | none => none
    | some s' => flagLoop e ngrps nrows ncols qs s'

/-- jump.py:386-393: flags carried into the next integration (groups
`1 .. last_grp_flagged - 1`). -/
def persistFlags (e : Env α) (nints ngrps : Nat) (persist : Nat → Img Nat) (gdq : Cube4) : Cube4 :=
  if e.maskPersist = true then
    fun i g r c =>
      if 1 ≤ i ∧ i < nints ∧ 1 ≤ e.persistGrps ∧ 1 ≤ g ∧ g < min e.persistGrps ngrps then
        gdq i g r c ||| persist (i - 1) r c
      else gdq i g r c
  else gdq

/-- jump.py:307-394, `flag_large_events`. -/
def flagLargeEvents (e : Env α) (nints ngrps nrows ncols : Nat) (gdq : Cube4) : Option Cube4 :=
  (flagLoop e ngrps nrows ncols (schedule nints ngrps)
    { gdq := gdq, persist := fun _ _ _ => 0, next := none }).map
    (fun s => persistFlags e nints ngrps s.persist s.gdq)

/-! ## Showers -/

/-- `np.nanmean` of the group differences of one pixel of one integration, with
the groups flagged DO_NOT_USE, SATURATED or JUMP_DET ignored (jump.py:910-919 and
922-931). -/
def approxRate (e : Env α) (ngroups : Nat) (data : Nat → Option α) (dq : Nat → Nat) : Option α :=
  let masked : Nat → Option α := fun g =>
    if dq g &&& (e.dnu ||| e.sat ||| e.jump) ≠ 0 then none else data g
  let d : List (Option α) := (List.range (ngroups - 1)).map (fun g =>
    match masked g, masked (g + 1) with
    | some a, some b => some (b - a)
    | _, _ => none)
  let f := Verif.Jump.finite d
  if f.length = 0 then none else some (f.sum / (f.length : α))

/-- jump.py:936-939: is the pixel reverted to its flags from before? -/
def reverted (e : Env α) (before after : Option α) : Bool :=
  match before, after with
  | some a, some b => decide (|a - b| > e.maxShower)
  | _, _ => true

/-- jump.py:879-941, `max_flux_showers`. -/
def maxFluxShowers (e : Env α) (ngroups : Nat) (data : Nat → Nat → Nat → Nat → Option α)
    (ingdq gdq : Cube4) : Cube4 :=
  fun i g r c =>
    if reverted e (approxRate e ngroups (fun g => data i g r c) (fun g => ingdq i g r c))
        (approxRate e ngroups (fun g => data i g r c) (fun g => gdq i g r c)) then
      ingdq i g r c
    else gdq i g r c

/-- jump.py:818-819: reference pixels are marked unusable while showers are
sought (the pixel DQ must equal the reference flag exactly). -/
def maskRef (e : Env α) (pdq : Img Nat) (gdq : Cube4) : Cube4 :=
  fun i g r c => if pdq r c = e.ref then e.dnu else gdq i g r c

/-- jump.py:850-874: the showers found (integration, group, ellipses) are
flagged one after the other. -/
def flagShowers (e : Env α) (ngroups nrows ncols num : Nat) (expansion : α)
    (showers : List (Nat × Nat × List (Ellipse α))) (gdq : Cube4) : Cube4 :=
  showers.foldl (fun q s => fun i =>
    if i = s.1 then extendEllipses e ngroups nrows ncols s.2.1 num true expansion s.2.2 (q i)
    else q i) gdq

/-- jump.py:779-876, `find_faint_extended`, for whatever showers were detected. -/
def findFaintExtended (e : Env α) (nints ngroups nrows ncols minDiffs dnuGroups num : Nat)
    (expansion : α) (showers : List (Nat × Nat × List (Ellipse α)))
    (data : Nat → Nat → Nat → Nat → Option α) (pdq : Img Nat) (ingdq : Cube4) : Cube4 :=
  if (nints : Int) * ((ngroups : Int) - 1) - dnuGroups < minDiffs then ingdq
  else
    maxFluxShowers e ngroups data ingdq
      (flagShowers e ngroups nrows ncols num expansion showers (maskRef e pdq ingdq))

/-- jump.py:1219-1224, `nan_invalid_data`, one sample: five exact comparisons. -/
def nanInvalid (e : Env α) (dq : Nat) (x : Option α) : Option α :=
  if dq = e.jump + e.dnu ∨ dq = e.sat + e.dnu ∨ dq = e.sat ∨ dq = e.jump ∨ dq = e.dnu then none
  else x

/-- jump.py:300-304, `setup_pdq`, one pixel. -/
def setupPdq (dnu ngv : Nat) (gain : Option α) (pdq : Nat) : Nat :=
  match gain with
  | none => pdq ||| (ngv ||| dnu)
  | some g => if g ≤ 0 then pdq ||| (ngv ||| dnu) else pdq

end Verif.Snowball
