import Verif.Model.Ols

/-!
# Linked lists of the C extension

Model of the memory handling in `ramp_fitting/src/slope_fitter.c`: the linked lists of segments and of cosmic-ray
magnitudes, which are allocated group by group, pruned, fitted, handed over to the optional results, read when the
optional product is built, and freed.

A heap is the list of the live nodes with their addresses.  NULL is `none`.  Every function returns `none` if the C
program would have undefined behaviour (use of NULL or of a node that is not live, double free, index out of bounds) or
would not terminate.  Segments and cosmic rays are in different heaps, since they have different types.  An allocation
takes any address that is not live, in particular one that has been freed; it does not fail, so that the branches for
memory errors are left out.  Zeroing a node just before it is freed is left out.
-/

namespace Verif.OlsHeap

open Verif.Ols Verif.Dq

/-- A node: the forward link and the rest (`struct simple_ll_node`, slope_fitter.c:270-285, `struct cr_node` 309-312). -/
structure Cell (β : Type) where
  flink : Option Nat
  val : β

/-- The live nodes with their addresses (slope_fitter.c:261-285). -/
abbrev Heap (β : Type) := List (Nat × Cell β)

/-- The addresses in use (slope_fitter.c:261-285). -/
def live {β : Type} (h : Heap β) : List Nat := h.map Prod.fst

/-- Reading a node, e.g. `current->flink` (slope_fitter.c:1236). -/
def load {β : Type} : Heap β → Nat → Option (Cell β)
  | [], _ => none
  | (a, c) :: h, p => if a = p then some c else load h p

/-- Writing a node, e.g. `segs->tail->flink = seg` (slope_fitter.c:1034). -/
def store {β : Type} (h : Heap β) (p : Nat) (c : Cell β) : Option (Heap β) :=
  if p ∈ live h then some (h.map fun e => if e.1 = p then (p, c) else e) else none

/-- `free` (slope_fitter.c:77-81). -/
def free {β : Type} (h : Heap β) (p : Nat) : Option (Heap β) :=
  if p ∈ live h then some (h.filter fun e => decide (e.1 ≠ p)) else none

/-- `calloc` of a node, followed by the assignments to its fields (slope_fitter.c:1014-1025, 1373-1382).  `A` chooses the
address from the addresses in use. -/
def calloc {β : Type} (A : List Nat → Nat) (h : Heap β) (c : Cell β) : Heap β × Nat :=
  let p := A (live h)
  ((p, c) :: h, p)

/-- The loop that frees a linked list (slope_fitter.c:1146-1152, 1155-1161, 1234-1240, 1260-1265, 1419-1424, 2705-2709). -/
def freeLoop {β : Type} : Nat → Heap β → Option Nat → Option (Heap β)
  | _, h, none => some h
  | 0, _, some _ => none
  | n + 1, h, some p => do
    let c ← load h p
    let h ← free h p
    freeLoop n h c.flink

/-- Frees a linked list; a list that ends has no more nodes than the heap (slope_fitter.c:1234-1240). -/
def freeAll {β : Type} (h : Heap β) (p : Option Nat) : Option (Heap β) := freeLoop h.length h p

/-! ## Segments -/

/-- A segment node apart from its link: the groups, the field `length`, and the fields filled by the fit
(slope_fitter.c:270-285). -/
structure Node (β : Type) where
  seg : Seg
  length : Nat
  res : β

/-- `struct segment_list` (slope_fitter.c:291-296). -/
structure SegC where
  head : Option Nat
  tail : Option Nat
  size : Nat
  maxLen : Nat

/-- A list set to zero (slope_fitter.c:1243, 1268). -/
def SegC.zero : SegC := ⟨none, none, 0, 0⟩

/-- `add_segment_to_list` (slope_fitter.c:1000-1045).  `zero` is the content of the fields that `calloc` sets to zero. -/
def addSegC {β : Type} (A : List Nat → Nat) (zero : β) (h : Heap (Node β)) (l : SegC) (s : Seg) :
    Option (Heap (Node β) × SegC) :=
  if s.len = 1 ∧ 1 < l.maxLen then some (h, l)
  else
    let r := calloc A h ⟨none, ⟨s, s.len, zero⟩⟩
    let maxLen := if l.maxLen < s.len then s.len else l.maxLen
    match l.head with
    | none => some (r.1, ⟨some r.2, some r.2, 1, maxLen⟩)
    | some _ => do
      let t ← l.tail
      let c ← load r.1 t
      let h ← store r.1 t { c with flink := some r.2 }
      some (h, ⟨l.head, some r.2, l.size + 1, maxLen⟩)

/-- The loop of `prune_segment_list` that removes segments of length one (slope_fitter.c:2717-2734): `prev` is the last node that
was kept. -/
def pruneLoop {β : Type} : Nat → Heap (Node β) → SegC → (seg prev : Option Nat) → Option (Heap (Node β) × SegC)
  | _, h, l, none, _ => some (h, l)
  | 0, _, _, some _, _ => none
  | n + 1, h, l, some p, prev => do
    let c ← load h p
    if c.val.length = 1 then
      if l.head = some p then
        let h ← free h p
        pruneLoop n h { l with head := c.flink, size := l.size - 1 } c.flink prev
      else
        let q ← prev
        let d ← load h q
        let h ← store h q { d with flink := c.flink }
        let h ← free h p
        pruneLoop n h { l with size := l.size - 1 } c.flink prev
    else pruneLoop n h l c.flink (some p)

/-- `prune_segment_list` (slope_fitter.c:2686-2735). -/
def pruneC {β : Type} (h : Heap (Node β)) (l : SegC) : Option (Heap (Node β) × SegC) :=
  if l.size < 2 then some (h, l)
  else if l.maxLen < 2 then do
    let p ← l.head
    let c ← load h p
    let h ← freeAll h c.flink
    let c ← load h p
    let h ← store h p ⟨none, { c.val with length := 1 }⟩
    some (h, l)
  else pruneLoop h.length h l l.head none

/-- Loop variables of `compute_integration_segments` with the heap (slope_fitter.c:1284-1294). -/
structure LoopC (β : Type) where
  inSeg : Bool
  start : Nat
  heap : Heap (Node β)
  lst : SegC

/-- Body of the loop over the groups (slope_fitter.c:1305-1334). -/
def segStepC {β : Type} (A : List Nat → Nat) (zero : β) (fl : Flags) (g : List Nat) (st : LoopC β) (idx : Nat) :
    Option (LoopC β) :=
  if clear (g.getD idx 0) fl.pers = 0 then
    if !st.inSeg then
      some { st with
        inSeg := true
        start := if 0 < idx ∧ clear (g.getD (idx - 1) 0) fl.pers = fl.jump then idx - 1 else idx }
    else some st
  else
    if st.inSeg then do
      let r ← addSegC A zero st.heap st.lst ⟨st.start, idx⟩
      some { st with inSeg := false, heap := r.1, lst := r.2 }
    else some st

/-- The segment at the end of the integration (slope_fitter.c:1336-1342). -/
def lastSegC {β : Type} (A : List Nat → Nat) (zero : β) (n : Nat) (st : LoopC β) : Option (Heap (Node β) × SegC) :=
  if st.inSeg then addSegC A zero st.heap st.lst ⟨st.start, n⟩ else some (st.heap, st.lst)

/-- `compute_integration_segments` from the loop on (slope_fitter.c:1304-1352), into a list that may have been used before. -/
def computeSegsC {β : Type} (A : List Nat → Nat) (zero : β) (fl : Flags) (g : List Nat) (h : Heap (Node β)) (l : SegC) :
    Option (Heap (Node β) × SegC) := do
  let st ← (List.range g.length).foldlM (segStepC A zero fl g) ⟨false, 0, h, l⟩
  let r ← lastSegC A zero g.length st
  pruneC r.1 r.2

/-- The loop over the segments that fits each and writes the results to its node (slope_fitter.c:3110-3129); also returns the
results in order. -/
def fitLoop {β : Type} (fit : Seg → Nat → β) : Nat → Heap (Node β) → Option Nat → Option (Heap (Node β) × List β)
  | _, h, none => some (h, [])
  | 0, _, some _ => none
  | n + 1, h, some p => do
    let c ← load h p
    let h ← store h p { c with val := { c.val with res := fit c.val.seg c.val.length } }
    let r ← fitLoop fit n h c.flink
    some (r.1, fit c.val.seg c.val.length :: r.2)

/-- A loop that reads a linked list (slope_fitter.c:2990-3004, 3575-3647, 3651-3673). -/
def readLoop {β : Type} (h : Heap β) : Nat → Option Nat → Option (List β)
  | _, none => some []
  | 0, some _ => none
  | n + 1, some p => do
    let c ← load h p
    let r ← readLoop h n c.flink
    some (c.val :: r)

/-! ## Cosmic rays -/

/-- `struct cr_list` (slope_fitter.c:315-319). -/
structure CrC where
  head : Option Nat
  tail : Option Nat
  size : Nat

/-- A list set to zero (slope_fitter.c:1426). -/
def CrC.zero : CrC := ⟨none, none, 0⟩

/-- `cr_list_add` (slope_fitter.c:1369-1407). -/
def crAdd {γ : Type} (A : List Nat → Nat) (h : Heap γ) (l : CrC) (mag : γ) : Option (Heap γ × CrC) :=
  let r := calloc A h ⟨none, mag⟩
  if l.size = 0 then some (r.1, ⟨some r.2, some r.2, 1⟩)
  else do
    let t ← l.tail
    let c ← load r.1 t
    let h ← store r.1 t { c with flink := some r.2 }
    some (h, ⟨l.head, some r.2, l.size + 1⟩)

/-! ## One pixel -/

/-- What the memory handling of one integration depends on: the group DQ, the magnitudes of its cosmic rays in order, whether the
first group is saturated, whether all groups are unusable, the fit, and the group DQ for the segments of a ramp with charge
loss (slope_fitter.c:1797-1858, 2928-2960, 3041-3066). -/
structure IntegIn (β γ : Type) where
  g : List Nat
  mags : List γ
  firstSat : Bool
  unusable : Bool
  fit : Seg → Nat → β
  loss : Option (List Nat)

/-- The heaps and the lists of `struct ramp_data` for the optional results (slope_fitter.c:223-228): per cell the heads, and the
greatest sizes (`max_num_segs` begins with -1, 2055). -/
structure Mem (β γ : Type) where
  hs : Heap (Node β)
  hc : Heap γ
  rsegs : List (Option Nat)
  rcrs : List (Option Nat)
  maxSegs : Int
  maxCrs : Nat

/-- The lists of `struct pixel_ramp` (slope_fitter.c:364-369). -/
structure Lists where
  segs : List SegC
  crs : List CrC

/-- The part of `get_pixel_ramp` that concerns the list of one integration (slope_fitter.c:1815-1826). -/
def loadCrs {γ : Type} (A : List Nat → Nat) (saveOpt : Bool) (h : Heap γ) (l : CrC) (mags : List γ) :
    Option (Heap γ × CrC) := do
  let h ← freeAll h l.head
  if saveOpt then mags.foldlM (fun r m => crAdd A r.1 r.2 m) (h, CrC.zero) else some (h, CrC.zero)

/-- The loop over the integrations of `get_pixel_ramp` (slope_fitter.c:1811-1826). -/
def loadAllCrs {γ : Type} (A : List Nat → Nat) (saveOpt : Bool) : Heap γ → List CrC → List (List γ) →
    Option (Heap γ × List CrC)
  | h, l :: ls, m :: ms => do
    let r ← loadCrs A saveOpt h l m
    let s ← loadAllCrs A saveOpt r.1 ls ms
    some (s.1, r.2 :: s.2)
  | h, _, _ => some (h, [])

/-- `clean_segment_list` (slope_fitter.c:1219-1245). -/
def cleanSegs {β : Type} : Heap (Node β) → List SegC → Option (Heap (Node β) × List SegC)
  | h, [] => some (h, [])
  | h, l :: ls => do
    let h ← freeAll h l.head
    let r ← cleanSegs h ls
    some (r.1, SegC.zero :: r.2)

/-- Hand-over of the lists of an integration to the cell `idx` (slope_fitter.c:1975-1998). -/
def handOver {β γ : Type} (m : Mem β γ) (idx : Nat) (l : SegC) (c : CrC) : Option (Mem β γ × SegC × CrC) :=
  if idx < m.rsegs.length ∧ idx < m.rcrs.length then
    some ({ m with
      rsegs := m.rsegs.set idx l.head
      maxSegs := if m.maxSegs < l.size then l.size else m.maxSegs
      rcrs := if 0 < c.size then m.rcrs.set idx c.head else m.rcrs
      maxCrs := if 0 < c.size ∧ m.maxCrs < c.size then c.size else m.maxCrs },
      { l with head := none, tail := none, size := 0 }, { c with head := none, tail := none, size := 0 })
  else none

/-- The segments of an integration (slope_fitter.c:3048, with the exit 1296-1302). -/
def integSegs {β γ : Type} (A : List Nat → Nat) (zero : β) (fl : Flags) (h : Heap (Node β)) (l : SegC) (i : IntegIn β γ) :
    Option (Heap (Node β) × SegC) :=
  if i.firstSat then some (h, l) else computeSegsC A zero fl i.g h l

/-- The fits of the segments of an integration, unless it is unusable (slope_fitter.c:3053-3061) or the list is empty (3105-3107). -/
def integFits {β γ : Type} (h : Heap (Node β)) (l : SegC) (i : IntegIn β γ) : Option (Heap (Node β) × List β) :=
  if i.unusable || decide (l.size = 0) then some (h, []) else fitLoop i.fit h.length h l.head

/-- `ramp_fit_pixel_integration` (slope_fitter.c:3041-3066) and the hand-over (2842-2844) for one
integration; returns the results of the segments. -/
def integC {β γ : Type} (A : List Nat → Nat) (zero : β) (fl : Flags) (saveOpt : Bool) (m : Mem β γ) (idx : Nat) (l : SegC)
    (c : CrC) (i : IntegIn β γ) : Option (Mem β γ × SegC × CrC × List β) := do
  let r ← integSegs A zero fl m.hs l i
  let s ← integFits r.1 r.2 i
  if saveOpt then do
    let o ← handOver { m with hs := s.1 } idx r.2 c
    some (o.1, o.2.1, o.2.2, s.2)
  else some ({ m with hs := s.1 }, r.2, c, s.2)

/-- The loop over the integrations of `ramp_fit_pixel` (slope_fitter.c:2829-2859).  `k` is the pixel's index in an image and `img`
the image size: the cell is `get_cube_index` (754-757). -/
def integsC {β γ : Type} (A : List Nat → Nat) (zero : β) (fl : Flags) (saveOpt : Bool) (img k : Nat) :
    Nat → Mem β γ → List SegC → List CrC → List (IntegIn β γ) → Option (Mem β γ × List SegC × List CrC × List (List β))
  | n, m, l :: ls, c :: cs, i :: is => do
    let r ← integC A zero fl saveOpt m (img * n + k) l c i
    let s ← integsC A zero fl saveOpt img k (n + 1) r.1 ls cs is
    some (s.1, r.2.1 :: s.2.1, r.2.2.1 :: s.2.2.1, r.2.2.2 :: s.2.2.2)
  | _, m, _, _, _ => some (m, [], [], [])

/-- The segments of an integration with charge loss: the list is built in a local variable, read, and freed
(slope_fitter.c:2945-2959). -/
def lossC {β : Type} (A : List Nat → Nat) (zero : β) (fl : Flags) (h : Heap (Node β)) (g : List Nat) :
    Option (Heap (Node β) × List (Node β)) := do
  let r ← computeSegsC A zero fl g h SegC.zero
  let l ← readLoop r.1 r.1.length r.2.head
  let h ← freeAll r.1 r.2.head
  some (h, l)

/-- The loop of `ramp_fit_pixel_rnoise_chargeloss` (slope_fitter.c:2928-2960). -/
def lossesC {β γ : Type} (A : List Nat → Nat) (zero : β) (fl : Flags) : Heap (Node β) → List (IntegIn β γ) →
    Option (Heap (Node β) × List (Option (List (Node β))))
  | h, [] => some (h, [])
  | h, i :: is =>
    match i.loss with
    | none => do
      let s ← lossesC A zero fl h is
      some (s.1, none :: s.2)
    | some g => do
      let r ← lossC A zero fl h g
      let s ← lossesC A zero fl r.1 is
      some (s.1, some r.2 :: s.2)

/-- What the fit of a pixel gets to see: per integration the results of the segments and the segments after the removal of
charge loss (slope_fitter.c:2565-2586). -/
structure PixOut (β : Type) where
  fits : List (List β)
  losses : List (Option (List (Node β)))

/-- One pixel: `get_pixel_ramp`, `ramp_fit_pixel`, `ramp_fit_pixel_rnoise_chargeloss` (slope_fitter.c:2565-2586). -/
def pixelC {β γ : Type} (A B : List Nat → Nat) (zero : β) (fl : Flags) (saveOpt : Bool) (img k : Nat) (m : Mem β γ)
    (ls : Lists) (px : List (IntegIn β γ)) : Option (Mem β γ × Lists × PixOut β) := do
  let c ← loadAllCrs B saveOpt m.hc ls.crs (px.map IntegIn.mags)
  let s ← cleanSegs m.hs ls.segs
  let r ← integsC A zero fl saveOpt img k 0 { m with hs := s.1, hc := c.1 } s.2 c.2 px
  let o ← lossesC A zero fl r.1.hs px
  some ({ r.1 with hs := o.1 }, ⟨r.2.1, r.2.2.1⟩, ⟨r.2.2.2, o.2⟩)

/-- `ols_slope_fit_pixels` (slope_fitter.c:2553-2594), the pixels in the order of the loops. -/
def pixelsC {β γ : Type} (A B : List Nat → Nat) (zero : β) (fl : Flags) (saveOpt : Bool) (img : Nat) :
    Nat → Mem β γ → Lists → List (List (IntegIn β γ)) → Option (Mem β γ × Lists × List (PixOut β))
  | _, m, ls, [] => some (m, ls, [])
  | k, m, ls, px :: pxs => do
    let r ← pixelC A B zero fl saveOpt img k m ls px
    let s ← pixelsC A B zero fl saveOpt img (k + 1) r.1 r.2.1 pxs
    some (s.1, s.2.1, r.2.2 :: s.2.2)

/-! ## Optional product and end -/

/-- Reading a list into the planes of an array (slope_fitter.c:3574-3647, 3649-3674): the C code stops with an error if the number of the
plane is greater than their number, so that writing plane `planes` is out of bounds. -/
def planesOf {β : Type} (planes : Int) (l : List β) : Option (List β) := if (l.length : Int) ≤ planes then some l else none

/-- The list of a cell, read into the planes of an array (slope_fitter.c:3574-3647, 3649-3674). -/
def cellC {β : Type} (h : Heap β) (planes : Int) (p : Option Nat) : Option (List β) :=
  (readLoop h h.length p).bind (planesOf planes)

/-- The cosmic rays of all cells.  Without any cosmic ray the lists are not read (slope_fitter.c:3649). -/
def saveCrsC {β γ : Type} (m : Mem β γ) : Option (List (List γ)) :=
  if 0 < m.maxCrs then m.rcrs.mapM (cellC m.hc m.maxCrs) else some (m.rcrs.map fun _ => [])

/-- `save_opt_res` (slope_fitter.c:3540-3680): for every cell the values of the segments and of the cosmic rays. -/
def saveOptC {β γ : Type} (m : Mem β γ) : Option (List (List (Node β)) × List (List γ)) := do
  let s ← m.rsegs.mapM (cellC m.hs m.maxSegs)
  let c ← saveCrsC m
  some (s, c)

/-- The optional product, if asked for (slope_fitter.c:2644-2649): the numbers of planes and the values. -/
def buildOptC {β γ : Type} (saveOpt : Bool) (m : Mem β γ) :
    Option (Option (Int × Nat × List (List (Node β)) × List (List γ))) :=
  if saveOpt then (saveOptC m).map fun o => some (m.maxSegs, m.maxCrs, o.1, o.2) else some none

/-- Freeing the lists of an array of heads (slope_fitter.c:1145-1162; segments and cosmic rays are in different heaps, so that the
order between them does not matter). -/
def freeHeads {β : Type} (h : Heap β) (ps : List (Option Nat)) : Option (Heap β) := ps.foldlM freeAll h

/-- The lists of an exposure: `ols_slope_fitter` (slope_fitter.c:924-983) with the arrays of heads of the optional results
(2054-2058), the fits, the optional product, `clean_ramp_data` (1140-1163) and `clean_pixel_ramp` (1114-1119).  `nints` is the number of integrations,
`pxs` the pixels. -/
def program {β γ : Type} (A B : List Nat → Nat) (zero : β) (fl : Flags) (saveOpt : Bool) (nints : Nat)
    (pxs : List (List (IntegIn β γ))) (hs : Heap (Node β)) (hc : Heap γ) :
    Option (Heap (Node β) × Heap γ × List (PixOut β) × Option (Int × Nat × List (List (Node β)) × List (List γ))) := do
  let cube := if saveOpt then nints * pxs.length else 0
  let r ← pixelsC A B zero fl saveOpt pxs.length 0
    ⟨hs, hc, List.replicate cube none, List.replicate cube none, -1, 0⟩
    ⟨List.replicate nints SegC.zero, List.replicate nints CrC.zero⟩ pxs
  let m := r.1
  let o ← buildOptC saveOpt m
  let hs ← freeHeads m.hs m.rsegs
  let hc ← freeHeads m.hc m.rcrs
  let s ← cleanSegs hs r.2.1.segs
  let hc ← freeHeads hc (r.2.1.crs.map CrC.head)
  some (s.1, hc, r.2.2, o)

/-! ## Start -/

/-- The allocation of the ramp data structure in `get_ramp_data` (slope_fitter.c:2025, 2036-2044, 2069): `parsed` says that the arguments
are accepted, `typed` that the arrays have the right types.  Arrays of wrong types are noticed in `get_ramp_data_arrays` (2090-2093), which frees
the structure; its caller frees it again, since only the local pointer of the callee is NULL then.  Of `clean_ramp_data` only the access is
modelled.  The result is the address of the structure or NULL. -/
def getRampDataC (A : List Nat → Nat) (parsed typed : Bool) (h : Heap Unit) : Option (Heap Unit × Option Nat) :=
  let r := calloc A h ⟨none, ()⟩
  if parsed then
    if typed then some (r.1, some r.2)
    else do
      let h ← free r.1 r.2
      let h ← free h r.2
      some (h, none)
  else do
    let h ← free r.1 r.2
    some (h, none)

end Verif.OlsHeap
