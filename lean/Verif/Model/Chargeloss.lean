import Verif.Model.Ols

/-!
# Read-noise variance of ramps with charge loss

Model of the recomputation in `ramp_fitting/src/slope_fitter.c` (2910-3035) that follows `ramp_fit_pixel` when the
caller supplied the unmodified group DQ (`orig_gdq`; ols_slope_fit_pixels, 2575-2580).  The input is the result of
`Verif.Ols.fitPixel`.
-/

namespace Verif.Ols

section Arith
variable {α : Type*} [Field α] [LinearOrder α]

/-- `stats[integ].chargeloss` (slope_fitter.c:1889-1891): some group of the integration carries CHARGELOSS. -/
def chargelossB (fl : Flags) (g : List Nat) : Bool := g.any fun d => hasB d fl.chargeloss

/-- `ramp_fit_pixel_rnoise_chargeloss_remove` (slope_fitter.c:3018-3035): in the groups flagged CHARGELOSS both CHARGELOSS and
DO_NOT_USE are toggled. -/
def chargelossRemove (fl : Flags) (g : List Nat) : List Nat :=
  g.map fun d => if hasB d fl.chargeloss then d ^^^ (fl.dnu ||| fl.chargeloss) else d

/-- Read-noise variance of one new segment (slope_fitter.c:2992-3000). -/
def chargelossSegVar (cfg : Cfg α) (px : Pix α) (i : Integ α) (s : Seg) : α :=
  if s.len = 1 then rnoiseVar px 2 (len1Timing cfg i.is0th i.isZframe)
  else if s.len = 2 then rnoiseVar px 2 cfg.groupTime
  else if px.gain ≤ 0 then 0 else rnoiseVar px s.len cfg.groupTime

/-- `invvar_r` of `ramp_fit_pixel_rnoise_chargeloss_segs` (slope_fitter.c:2990-3004). -/
def chargelossInv (fl : Flags) (cfg : Cfg α) (px : Pix α) (i : Integ α) (orig : List Nat) : α :=
  (computeSegs fl (chargelossRemove fl orig)).segs.foldl
    (fun a s => if 0 < chargelossSegVar cfg px i s then a + 1 / chargelossSegVar cfg px i s else a) 0

/-- The integration's new read-noise variance (slope_fitter.c:3007-3010).  The division by zero gives infinity, which is above the
threshold and becomes zero. -/
def chargelossVar (inv : α) : α := if inv = 0 then 0 else if large ≤ 1 / inv then 0 else 1 / inv

/-- One integration of the loop of `ramp_fit_pixel_rnoise_chargeloss` (slope_fitter.c:2928-2960): the new rateints entry and what is
added to the exposure sum.  `g` is the group DQ handed to the fit, on which the statistics were computed. -/
def chargelossInteg (fl : Flags) (cfg : Cfg α) (px : Pix α) (i : Integ α) (g orig : List Nat) (r : Rate α) :
    Rate α × α :=
  if chargelossB fl g then
    let inv := chargelossInv fl cfg px i orig
    ({ r with varR := chargelossVar inv }, inv)
  else (r, if 0 < r.varR then 1 / r.varR else 0)

/-- `ramp_fit_pixel` followed by `ramp_fit_pixel_rnoise_chargeloss` (slope_fitter.c:2569-2580, 2914-2976): rateints and rate of one
pixel for which the caller supplied the unmodified group DQ `orig`, one list per integration. -/
def fitPixelOrig (fl : Flags) (cfg : Cfg α) (ngroups : Nat) (p : PixIn α) (orig : List (List Nat)) :
    List (Rate α) × Rate α :=
  let r := fitPixel fl cfg ngroups p
  let new := (List.zip (List.zip (loadPixel fl cfg p) p.ints) (List.zip orig r.1)).map fun e =>
    chargelossInteg fl cfg p.px e.1.1 e.1.2.2.1 e.2.1 e.2.2
  let evar := (new.map Prod.snd).sum
  let vr := if 0 < evar then 1 / evar else r.2.varR
  (new.map Prod.fst,
    if p.ints.any fun e => chargelossB fl e.2.1 then { r.2 with varR := if large ≤ vr then 0 else vr } else r.2)

end Arith
end Verif.Ols
