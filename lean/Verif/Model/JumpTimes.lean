import Verif.Model.JumpStep

/-!
# Group times of jump detection

Model of the part of `JumpData.__init__` (jump/jump_class.py) that derives the times between groups and the numbers of reads, and of
`detect_jumps_data` on an exposure with a read pattern.
-/

set_option linter.unusedSectionVars false

namespace Verif.JumpTimes

open Verif Verif.Jump Verif.JumpStep
open Verif.JumpDriver (Cube Exposure Switch)
open Verif.Snowball (Env)
open Verif.Shower (Det)

variable {α : Type} [Field α] [LinearOrder α]

/-- `np.mean(times)` (jump_class.py:56).  The groups of a read pattern are not empty. -/
def mean (l : List α) : α := l.sum / l.length

/-- `dt_group` and `n_reads_groupdiff` (jump_class.py:50-67); `none` is the ValueError.  A missing `nframes` is zero
(jump_class.py:32, 40-41). -/
def groupTimes (nframes : Nat) (pattern : Option (List (List α))) : Option (List α × List α) :=
  match pattern with
  | some rp =>
    let t := rp.map mean
    let n := rp.map fun l => (l.length : α)
    some (List.zipWith (fun a b => a - b) t.tail t, List.zipWith (· + ·) n.tail n)
  | none => if nframes = 0 then none else some ([1], [1 * 2 * nframes])

/-- Broadcasting of an array over `n` differences (twopoint_difference.py:179, 196-199); `none` is numpy's ValueError.  Entries beyond the last
difference are not used; they repeat the last one here.  For a single difference an array of more than one entry would enlarge the other
operand; that is not modelled. -/
def spread (n : Nat) (l : List α) : Option (Nat → α) :=
  if l.length = 1 ∨ l.length = n then some fun j => (l[min j (l.length - 1)]?).getD 0 else none

/-- The parameters of the detection with these times (twopoint_difference_class.py:41-42). -/
def withTimes (p : Params α) (ng nframes : Nat) (pattern : Option (List (List α))) : Option (Params α) :=
  (groupTimes nframes pattern).bind fun t =>
    (spread (ng - 1) t.1).bind fun dt => (spread (ng - 1) t.2).map fun n => { p with dt := dt, nReads := n }

/-- `JumpData` and `detect_jumps_data` (jump_class.py:50-67, jump.py:29-120) with a read pattern or a number of frames per group; `none` is an
exception. -/
def stepTimes (p : Params α) (sqrt : α → α) (clip : List (Option α) → List Bool) (s : Switch) (env : Env α) (det : Det α) (ask : Ask α)
    (nframes : Nat) (pattern : Option (List (List α))) (e : Exposure α) (maxCores : List Char) (ncpu : Nat) :
    Option (Cube Nat × Img Nat × Int × Nat) :=
  (withTimes p e.d.ng nframes pattern).bind fun q => step q sqrt clip s env det ask e maxCores ncpu

end Verif.JumpTimes
