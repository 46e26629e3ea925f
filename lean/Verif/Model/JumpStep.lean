import Verif.Model.JumpDriver
import Verif.Model.Shower

/-!
# The jump step as a whole

Model of `detect_jumps_data` (jump/jump.py:29-120) with the snowball step (`Verif.Snowball`) and the shower search
(`Verif.Shower`) put in, and of the number of snowballs reported.
-/

namespace Verif.JumpStep

open Verif Verif.Jump
open Verif.JumpDriver (Cube Exposure Switch twoPoint electrons)
open Verif.Snowball (Ellipse Env Cube4 St newSat selectSnowballs flagGroup flagLargeEvents schedule setupPdq)
open Verif.Shower (Det countDnu showers findFaint)

variable {α : Type} [Field α] [LinearOrder α]

/-- Number of snowballs of one group (jump.py:338-372); the second part of the result of `flag_large_events`. -/
def groupCount (e : Env α) (ngrps nrows intg group : Nat) (s : St) : Nat :=
  let cur := s.gdq intg group
  let jumps := e.findJump fun r c => cur r c &&& e.jump
  if e.satRequired then
    let ns := newSat e cur (s.gdq intg (group - 1))
    let nextNew := if group < ngrps - 1 then newSat e (s.gdq intg (group + 1)) cur else s.next.getD fun _ _ => 0
    (selectSnowballs e nrows ngrps group jumps (e.findSat fun r c => ns r c &&& e.sat)
      (e.findSat fun r c => nextNew r c &&& e.sat)).length
  else jumps.length

/-- `total_snowballs` (jump.py:333, 336-337, 372). -/
def countLoop (e : Env α) (ngrps nrows ncols : Nat) : List (Nat × Nat) → St → Nat
  | [], _ => 0
  | q :: qs, s => groupCount e ngrps nrows q.1 q.2 s + match flagGroup e ngrps nrows ncols q.1 q.2 s with
    | none => 0
    | some s' => countLoop e ngrps nrows ncols qs s'

/-- `flag_large_events` with its count (jump.py:307-394). -/
def large (e : Env α) (nints ngrps nrows ncols : Nat) (gdq : Cube4) : Option (Cube4 × Nat) :=
  (flagLargeEvents e nints ngrps nrows ncols gdq).map fun g =>
    (g, countLoop e ngrps nrows ncols (schedule nints ngrps) { gdq := gdq, persist := fun _ _ _ => 0, next := none })

/-- `find_faint_extended` with its count and the default `min_diffs_for_shower = 10` (jump.py:779-876). -/
def faint (e : Env α) (det : Det α) (nints ngrps nrows ncols num : Nat) (expansion : α)
    (data : Nat → Nat → Nat → Nat → Option α) (rn : Img (Option α)) (pdq : Img Nat) (gdq : Cube4) : Cube4 × Nat :=
  (findFaint e det nints ngrps nrows ncols 10 num expansion data rn pdq gdq,
    if (nints : Int) * ((ngrps : Int) - 1) - countDnu e.dnu nints ngrps nrows ncols gdq < 10 then 0
    else ((showers e det nints ngrps nrows ncols data rn pdq gdq).map fun s => s.2.2.length).sum)

/-- What the caller asks for (jump_class.py:109, 138, 172, 191, 215): snowballs, showers, groups masked after a shower, growth
of showers, and the flag for pixels without gain. -/
structure Ask (α : Type) where
  large : Bool
  showers : Bool
  num : Nat
  expansion : α
  ngv : Nat

/-- `readnoise_2d` as handed to the shower search (jump.py:76, 112). -/
def showerNoise (e : Exposure α) : Img (Option α) := fun r c => (e.gain r c).map fun g => e.rnoise r c * g

/-- The pixel DQ (jump.py:70, 300-304). -/
def stepPdq (p : Params α) (ask : Ask α) (e : Exposure α) : Img Nat := fun r c =>
  setupPdq p.dnu ask.ngv (e.gain r c) (e.pdq r c)

/-- `detect_jumps_data` (jump.py:29-120): group DQ, pixel DQ, number of primary cosmic rays, number of extended events;
`none` is the UnboundLocalError of the snowball step. -/
def step (p : Params α) (sqrt : α → α) (clip : List (Option α) → List Bool) (s : Switch) (env : Env α) (det : Det α)
    (ask : Ask α) (e : Exposure α) (maxCores : List Char) (ncpu : Nat) : Option (Cube Nat × Img Nat × Int × Nat) :=
  let env := { env with jump := p.jump, sat := p.sat, dnu := p.dnu }
  let t := twoPoint p sqrt clip s e maxCores ncpu
  let a := if ask.large then large env e.d.ni e.d.ng e.d.nr e.d.nc t.1 else some (t.1, 0)
  a.map fun a =>
    let b := if ask.showers then
        faint env det e.d.ni e.d.ng e.d.nr e.d.nc ask.num ask.expansion t.2.2 (showerNoise e) (stepPdq p ask e) a.1
      else a
    (b.1, stepPdq p ask e, t.2.1, b.2)

/-- Without snowballs and showers this is `JumpDriver.detectJumps`. -/
theorem step_plain (p : Params α) (sqrt : α → α) (clip : List (Option α) → List Bool) (s : Switch) (env : Env α) (det : Det α)
    (ask : Ask α) (e : Exposure α) (maxCores : List Char) (ncpu : Nat) (hl : ask.large = false) (hs : ask.showers = false) :
    let o := JumpDriver.detectJumps p sqrt clip s e maxCores ncpu
    step p sqrt clip s env det ask e maxCores ncpu = some (o.1, stepPdq p ask e, o.2.1, o.2.2) := by
  simp only [step, hl, hs, Bool.false_eq_true, if_false, Option.map_some, JumpDriver.detectJumps]

end Verif.JumpStep
