import Verif.Model.Outlier

/-!
# The class `MedianComputer`

Model of `src/stcal/outlier_detection/median.py:50-138`: the two kinds of computer behind one interface, with the index
argument, the uninitialised memory of the in-memory computer and the removal of the files of the on-disk computer.

Images are two-dimensional; the data type checks (median.py:353-355) and casts (median.py:119) are not modelled.
-/

namespace Verif.Outlier

/-- The array of the in-memory computer (median.py:96): `n` slots of `rows` by `cols` values. -/
structure Mem (β : Type) where
  n : Nat
  rows : Nat
  cols : Nat
  cell : Nat → Nat → Nat → β

/-- numpy's rule for an integer index of an axis of length `n` (median.py:119): negative indices count from the end;
`none` is the `IndexError`. -/
def npIndex (n : Nat) (i : Int) : Option Nat :=
  if 0 ≤ i ∧ i < n then some i.toNat
  else if -(n : Int) ≤ i ∧ i < 0 then some (i + n).toNat
  else none

/-- Row or column of the data that numpy's broadcasting puts at position `r` of an axis (median.py:119): an axis of
length one is repeated. -/
def bcast (len r : Nat) : Nat := if len = 1 then 0 else r

/-- The shape `(a, b)` of a rectangular image, `b` being the length of its first row (median.py:119). -/
def imgShape {β : Type} (img : Img β) : Nat × Nat := (img.length, (img.head?.map List.length).getD 0)

/-- `self._median_computer[idx] = data` (median.py:119): every axis of the data has the length of the slot or length
one.  `none` is an exception. -/
def Mem.store {β : Type} (m : Mem β) (img : Img β) (i : Int) : Option (Mem β) :=
  let s := imgShape img
  (npIndex m.n i).bind fun k =>
    if hasShape img s.1 s.2 && (decide (s.1 = m.rows) || decide (s.1 = 1)) &&
        (decide (s.2 = m.cols) || decide (s.2 = 1)) then
      some ⟨m.n, m.rows, m.cols, fun k' r c =>
        if k' = k ∧ r < m.rows ∧ c < m.cols then
          ((img[bcast s.1 r]?.bind fun row => row[bcast s.2 c]?).getD (m.cell k' r c))
        else m.cell k' r c⟩
    else none

/-- `MedianComputer` (median.py:50-138).  `closed` is an on-disk computer whose files were removed by `cleanup`. -/
inductive Computer (β : Type) where
  | memory (m : Mem β)
  | disk (d : Disk β)
  | closed

/-- `MedianComputer.__init__` (median.py:89-99).  `junk` is what the memory returned by `np.empty` holds. -/
def Computer.init {β : Type} (inMemory : Bool) (n rows cols item buffer : Nat) (junk : Nat → Nat → Nat → β) :
    Computer β :=
  if inMemory then .memory { n, rows, cols, cell := junk } else .disk (Disk.init β n rows cols item buffer)

/-- `MedianComputer.append` (median.py:101-122); `none` is an exception.  The directory of a closed computer no longer
exists and writing to a file in it fails. -/
def Computer.append {β : Type} (p : Computer β) (img : Img β) (idx : Option Int) : Option (Computer β) :=
  match p with
  | .memory m => idx.bind fun i => (m.store img i).map .memory
  | .disk d => (d.add img).map .disk
  | .closed => none

/-- Calls of `append` one after the other (median.py:101-122). -/
def Computer.appendAll {β : Type} (p : Computer β) : List (Img β × Option Int) → Option (Computer β)
  | [] => some p
  | q :: t => (p.append q.1 q.2).bind fun p' => p'.appendAll t

/-- `MedianComputer.evaluate` (median.py:124-138): the image and the computer afterwards.  `nanmedian3D` overwrites the
array of the in-memory computer (median.py:21, 134); `scratch` is what it leaves there. -/
def Computer.evaluate {β γ : Type} (med : List β → γ) (nan : γ)
    (scratch : (Nat → Nat → Nat → β) → (Nat → Nat → Nat → β)) (p : Computer β) :
    Option ((Nat → Nat → γ) × Computer β) :=
  match p with
  | .memory m => some (fun r c => med ((List.range m.n).map fun k => m.cell k r c),
      .memory { m with cell := scratch m.cell })
  | .disk d => some (d.median med nan, .closed)
  | .closed => none

end Verif.Outlier
