import Verif.Thm.PedestalMosaic
import Verif.Thm.OutlierUnits

/-! # Individual zero levels and outlier detection (C185)

The way from the sky matching (skymatch/skymatch.py) over the images resampled one by one onto a common grid (resample/resample.py:655-667, 838-840)
and their median (outlier_detection/median.py:89-138) to the blotted median and the flags (outlier_detection/utils.py:117-216, 220-297). -/

set_option linter.unusedSectionVars false

namespace Verif.Thm
open Verif.Sky Verif.Drizzle Verif.Resample
open Verif.Outlier (memMedian flagCrs flagResampled Arr2)
open Verif.Jump (nanmedian)

section
variable {α : Type} [Field α] [LinearOrder α] [IsStrictOrderedRing α] [FloorRing α] {ν : Type}

/-- What is fixed beforehand for one image: its intensity scale and geometry at each pixel of the common grid, its errors, its size, the
transformation to the common grid and its bounding box. -/
structure OqImage (ν α : Type) where
  geo : Nat → Nat → α × Input ν α
  err : Arr2 α
  shape : Nat × Nat
  T : Option (Pixmap.Box α) → Option (Pixmap.Box α) → Option (α × α → Option α × Option α)
  box : Option (Pixmap.Box α)

/-- The parameters of resampling, median and outlier detection.  `keep` says, from the weights of a resampled image, which of its pixels
enter the median; `interp` is the interpolation of `blot_image`, for any median image. -/
structure OqSetup (ν α : Type) where
  rn : ν
  wtype : DrizType
  good : Option Nat
  rows : Nat
  cols : Nat
  keep : (Nat → Nat → α) → Nat → Nat → Bool
  interp : Arr2 α → α × α → Option (Option α)
  spline : Nat → List α → List α → List (List α) → α → α → α
  boxMedian : Option (Pixmap.Box α)
  fill : Option α
  step : α
  order : Nat
  snr : α
  snr1 : α
  snr2 : α
  scale1 : α
  scale2 : α

/-- An image resampled alone, at one pixel of the common grid. -/
def oqCell (S : OqSetup ν α) (sub : Bool) (g : OqImage ν α) (im : Im α) (r c : Nat) : Cell α :=
  science S.rn S.wtype S.good (List.zipWith (fun g im => (g.1, moInput sub g.2 im)) [g.geo r c] [im])

/-- An image resampled alone, NaN where it has no data and where its pixels are not kept. -/
def oqImg (S : OqSetup ν α) (sub : Bool) (g : OqImage ν α) (im : Im α) : Outlier.Img (Option α) :=
  (List.range S.rows).map fun r => (List.range S.cols).map fun c =>
    if S.keep (fun r c => (oqCell S sub g im r c).wht) r c then (oqCell S sub g im r c).out none else none

/-- The median image. -/
def oqMedian (S : OqSetup ν α) (sub : Bool) (gs : List (OqImage ν α)) (ims : List (Im α)) : Arr2 α :=
  memMedian nanmedian (List.zipWith (oqImg S sub) gs ims)

/-- The flags of one image (`none`: exception): those of `flag_crs`, and those of `flag_resampled_crs` with the sky that is still in the image as
background. -/
def oqFlag (S : OqSetup ν α) (sub : Bool) (med : Arr2 α) (g : OqImage ν α) (im : Im α) : Option ((Nat → Nat → Bool) × (Nat → Nat → Bool)) :=
  (Blot.gwcsBlot (S.interp med) S.spline g.T g.box S.boxMedian g.shape S.fill S.step S.order).map fun blot =>
    let sci : Arr2 α := fun r c => some (im.data (r * g.shape.2 + c))
    (flagCrs sci g.err blot S.snr,
      flagResampled g.shape.1 g.shape.2 sci g.err blot S.snr1 S.snr2 S.scale1 S.scale2 (if sub then 0 else im.sky))

/-- The flags of all images after sky matching. -/
def oqFlags (S : OqSetup ν α) (sub : Bool) (gs : List (OqImage ν α)) (r : List (Elem α)) :
    List (Option ((Nat → Nat → Bool) × (Nat → Nat → Bool))) :=
  List.zipWith (oqFlag S sub (oqMedian S sub gs (r.flatMap skImages))) gs (r.flatMap skImages)

/-- What is needed if a common constant is left in the images: they are not rescaled, weights are not negative, the interpolation follows the zero level
and the blotted image has NaN outside the median image. -/
structure OqLevel (S : OqSetup ν α) (gs : List (OqImage ν α)) : Prop where
  scale : ∀ g ∈ gs, ∀ r c, (g.geo r c).1 = 1
  weight : ∀ g ∈ gs, ∀ r c, DzNonneg S.rn S.wtype S.good [g.geo r c]
  interp : ∀ K med p, S.interp (uoArr 1 K med) p = (S.interp med p).map (uoVal 1 K)
  fill : S.fill = none

theorem oq_val (x : Option α) : uoVal 1 0 x = x := by cases x <;> simp [uoVal]

theorem oq_cell (S : OqSetup ν α) (sub : Bool) (K : α) (g : OqImage ν α)
    (hK : K = 0 ∨ ∀ r c, (g.geo r c).1 = 1 ∧ DzNonneg S.rn S.wtype S.good [g.geo r c]) (a b : Im α) (h : ZmIm sub K a b) (r c : Nat) :
    (oqCell S sub g b r c).wht = (oqCell S sub g a r c).wht ∧
      (oqCell S sub g b r c).out none = uoVal 1 K ((oqCell S sub g a r c).out none) := by
  rcases hK with rfl | hK
  · have := zm_same sub [g.geo r c] [a] [b] (.cons h .nil) S.rn S.wtype S.good
    simp only [oqCell]
    rw [this, oq_val]
    exact ⟨rfl, rfl⟩
  · obtain ⟨h1, h2⟩ := zm_const sub K 1 [g.geo r c] (by simpa using (hK r c).1) [a] [b] (.cons h .nil) S.rn S.wtype S.good (hK r c).2 none
    refine ⟨h1, h2.trans ?_⟩
    simp only [oqCell]
    generalize science S.rn S.wtype S.good (List.zipWith (fun g im => (g.1, moInput sub g.2 im)) [g.geo r c] [a]) = B
    simp only [Cell.out, uoVal, one_mul]
    split <;> simp

theorem oq_img (S : OqSetup ν α) (sub : Bool) (K : α) (g : OqImage ν α)
    (hK : K = 0 ∨ ∀ r c, (g.geo r c).1 = 1 ∧ DzNonneg S.rn S.wtype S.good [g.geo r c]) (a b : Im α) (h : ZmIm sub K a b) :
    oqImg S sub g b = uoImg 1 K (oqImg S sub g a) := by
  have hw : (fun r c => (oqCell S sub g b r c).wht) = fun r c => (oqCell S sub g a r c).wht := by
    funext r c
    exact (oq_cell S sub K g hK a b h r c).1
  simp only [oqImg, uoImg, List.map_map]
  refine List.map_congr_left fun r _ => ?_
  simp only [Function.comp, List.map_map]
  refine List.map_congr_left fun c _ => ?_
  simp only [Function.comp, hw, (oq_cell S sub K g hK a b h r c).2]
  split <;> rfl

theorem oq_median (S : OqSetup ν α) (sub : Bool) (K : α) (gs : List (OqImage ν α))
    (hK : K = 0 ∨ ∀ g ∈ gs, ∀ r c, (g.geo r c).1 = 1 ∧ DzNonneg S.rn S.wtype S.good [g.geo r c]) (l l' : List (Im α))
    (h : List.Forall₂ (ZmIm sub K) l l') : oqMedian S sub gs l' = uoArr 1 K (oqMedian S sub gs l) := by
  have hl : List.zipWith (oqImg S sub) gs l' = (List.zipWith (oqImg S sub) gs l).map (uoImg 1 K) := by
    induction h generalizing gs with
    | nil => simp
    | cons hq _ ih =>
      cases gs with
      | nil => rfl
      | cons g gs =>
        rw [List.zipWith_cons_cons, List.zipWith_cons_cons, List.map_cons,
          oq_img S sub K g (hK.imp id fun h => h g (by simp)) _ _ hq, ih gs (hK.imp id fun h g hg => h g (by simp [hg]))]
  funext r c
  simp only [oqMedian, uoArr, hl, memMedian]
  rw [← uo_median 1 K one_pos]
  congr 1
  rw [List.filterMap_map, List.map_filterMap]
  apply List.filterMap_congr
  intro img _
  simp only [Function.comp, uoImg, List.getElem?_map]
  cases img[r]? with
  | none => rfl
  | some row => simp [List.getElem?_map]

/-- Only the image less the background counts. -/
theorem oq_resampled (h w : Nat) (sci sci' err blot : Arr2 α) (snr1 snr2 scale1 scale2 b b' : α)
    (hs : ∀ r c, (sci' r c).map (fun x => x - b') = (sci r c).map fun x => x - b) :
    flagResampled h w sci' err blot snr1 snr2 scale1 scale2 b' = flagResampled h w sci err blot snr1 snr2 scale1 scale2 b := by
  have hd : Outlier.diffNoise sci' blot b' = Outlier.diffNoise sci blot b := by
    funext r c
    have := hs r c
    simp only [Outlier.diffNoise]
    cases h1 : sci r c with
    | none => cases h2 : sci' r c with
      | none => rfl
      | some x => simp [h1, h2] at this
    | some x => cases h2 : sci' r c with
      | none => simp [h1, h2] at this
      | some y =>
        simp only [h1, h2, Option.map_some, Option.some.injEq] at this
        cases blot r c with
        | none => rfl
        | some v =>
          simp only [Option.some.injEq]
          congr 1
          linarith
  simp only [flagResampled, hd]

theorem oq_flag (S : OqSetup ν α) (sub : Bool) (K : α) (hK : K = 0 ∨ (S.fill = none ∧
      ∀ K med p, S.interp (uoArr 1 K med) p = (S.interp med p).map (uoVal 1 K))) (med : Arr2 α) (g : OqImage ν α) (a b : Im α)
    (h : ZmIm sub K a b) :
    (oqFlag S sub (uoArr 1 K med) g b).map (fun f => (if sub then f.1 else fun _ _ => false, f.2)) =
      (oqFlag S sub med g a).map fun f => (if sub then f.1 else fun _ _ => false, f.2) := by
  have hb : Blot.gwcsBlot (S.interp (uoArr 1 K med)) S.spline g.T g.box S.boxMedian g.shape S.fill S.step S.order =
      (Blot.gwcsBlot (S.interp med) S.spline g.T g.box S.boxMedian g.shape S.fill S.step S.order).map (uoArr 1 K) := by
    rcases hK with rfl | ⟨hf, hi⟩
    · have : ∀ m : Arr2 α, uoArr 1 0 m = m := fun m => by funext r c; exact oq_val _
      rw [this, show (uoArr 1 0 : Arr2 α → Arr2 α) = id from funext this, Option.map_id, id]
    · have := C157_blot 1 K (S.interp med) (S.interp (uoArr 1 K med)) (hi K med) S.spline g.T g.box S.boxMedian g.shape none S.step S.order
      rw [hf]
      exact this
  simp only [oqFlag, hb, Option.map_map]
  congr 1
  funext blot
  have he : uoArr 1 0 g.err = g.err := by funext r c; exact oq_val _
  obtain ⟨f1, f2⟩ := C157_flags 1 K one_pos g.shape.1 g.shape.2 (fun r c => some (a.data (r * g.shape.2 + c))) g.err blot S.snr S.snr1 S.snr2 S.scale1
    S.scale2 (if sub then 0 else a.sky)
  rw [he] at f1 f2
  simp only [Function.comp]
  refine Prod.ext ?_ ?_
  · cases sub with
    | false => rfl
    | true =>
      simp only [if_true]
      rw [← f1]
      congr 1
      funext r c
      have := h (r * g.shape.2 + c)
      simp only [if_true, sub_zero] at this
      simp [uoArr, uoVal, this]
  · simp only
    rw [← f2]
    refine oq_resampled _ _ _ _ _ _ _ _ _ _ _ _ fun r c => ?_
    have := h (r * g.shape.2 + c)
    simp only [uoArr, uoVal, Option.map_some, Option.some.injEq, one_mul]
    rw [this]
    ring

/-- The flags that are promised: those of `flag_crs` if the sky has been subtracted, and those of `flag_resampled_crs`. -/
def oqSeen (sub : Bool) (l : List (Option ((Nat → Nat → Bool) × (Nat → Nat → Bool)))) : List (Option ((Nat → Nat → Bool) × (Nat → Nat → Bool))) :=
  l.map fun o => o.map fun f => (if sub then f.1 else fun _ _ => false, f.2)

theorem oq_flags (S : OqSetup ν α) (sub : Bool) (K : α) (gs : List (OqImage ν α)) (hK : K = 0 ∨ OqLevel S gs) (l l' : List (Im α))
    (h : List.Forall₂ (ZmIm sub K) l l') :
    oqSeen sub (List.zipWith (oqFlag S sub (oqMedian S sub gs l')) gs l') = oqSeen sub (List.zipWith (oqFlag S sub (oqMedian S sub gs l)) gs l) := by
  rw [oq_median S sub K gs (hK.imp id fun h g hg r c => ⟨h.scale g hg r c, h.weight g hg r c⟩) l l' h]
  generalize oqMedian S sub gs l = med
  have hK' : K = 0 ∨ (S.fill = none ∧ ∀ K med p, S.interp (uoArr 1 K med) p = (S.interp med p).map (uoVal 1 K)) :=
    hK.imp id fun h => ⟨h.fill, h.interp⟩
  clear hK
  induction h generalizing gs with
  | nil => simp
  | cons hq _ ih =>
    cases gs with
    | nil => rfl
    | cons g gs =>
      have := ih gs
      simp only [oqSeen] at this ⊢
      rw [List.zipWith_cons_cons, List.zipWith_cons_cons, List.map_cons, List.map_cons, this, oq_flag S sub K hK' med g _ _ hq]

/-- **C185**: each image (or group) has a constant of its own, and the images are connected through usable overlaps.  After the method
`global+match` outlier detection flags exactly the pixels that it flags without the constants; after `match` too, under the conditions `OqLevel`. -/
theorem C185_flags (env : Env α) (hs : SgShift env) (solve : Nat → List ((Nat → α) × α) → Nat → α) (z : Nat → α) (md sub : Bool)
    (els : List (Elem α)) (h1 : SkLeastSquares env solve (!sub) els) (h2 : SkLeastSquares env solve (!sub) (pdEls z els))
    (hc : PdConnected env (!sub) els) (hg : KyGood env els) (S : OqSetup ν α) (gs : List (OqImage ν α)) :
    (skymatch env solve .globMat md sub (pdEls z els)).map (fun r => oqSeen sub (oqFlags S sub gs r)) =
        (skymatch env solve .globMat md sub els).map (fun r => oqSeen sub (oqFlags S sub gs r)) ∧
    (OqLevel S gs → (skymatch env solve .mat md sub (pdEls z els)).map (fun r => oqSeen sub (oqFlags S sub gs r)) =
        (skymatch env solve .mat md sub els).map fun r => oqSeen sub (oqFlags S sub gs r)) := by
  obtain ⟨g1, K, g2⟩ := C176_pedestals env hs solve z md sub els h1 h2 hc hg
  refine ⟨?_, fun hL => ?_⟩
  · rw [g1, Option.map_map]
    congr 1
    funext r
    exact oq_flags S sub 0 gs (Or.inl rfl) _ _ (zm_both sub 0 _ _ (fun i => by cases sub <;> simp) r)
  · rw [g2, Option.map_map]
    congr 1
    funext r
    exact oq_flags S sub K gs (Or.inr hL) _ _ (zm_both sub K _ _ (fun i => by cases sub <;> simp) r)

/-- **C185** for the method `local`, without any condition on overlaps. -/
theorem C185_local (env : Env α) (hs : SgShift env) (solve : Nat → List ((Nat → α) × α) → Nat → α) (z : Nat → α) (md sub : Bool)
    (els : List (Elem α)) (hg : KyGood env els) (S : OqSetup ν α) (gs : List (OqImage ν α)) :
    (skymatch env solve .loc md sub (pdEls z els)).map (fun r => oqSeen sub (oqFlags S sub gs r)) =
      (skymatch env solve .loc md sub els).map fun r => oqSeen sub (oqFlags S sub gs r) := by
  rw [C176_local env hs solve z md sub els hg, Option.map_map]
  congr 1
  funext r
  exact oq_flags S sub 0 gs (Or.inl rfl) _ _ (zm_both sub 0 _ _ (fun i => by cases sub <;> simp) r)

end

/-! ## Examples -/

-- C185_flags, C185_local: all hypotheses hold for a real solver, a group among the images and arbitrary constants
example (z : Nat → ℝ) (sub : Bool) : ∃ solve, SgShift sgEnv ∧ SkLeastSquares sgEnv solve (!sub) pdExample
    ∧ SkLeastSquares sgEnv solve (!sub) (pdEls z pdExample) ∧ PdConnected sgEnv (!sub) pdExample ∧ KyGood sgEnv pdExample
    ∧ ∃ (S : OqSetup Unit ℝ) (gs : List (OqImage Unit ℝ)), gs.length = 4 ∧ OqLevel S gs := by
  obtain ⟨solve, hp⟩ := sg_solver
  refine ⟨solve, sg_env_shift, (hp _ _).1, (hp _ _).1, pd_example _, ?_,
    ⟨(), .unit, none, 1, 2, fun w r c => decide (w r c ≠ 0), fun med p => if p.1 < 0 then none else some (med ⌊p.2⌋.toNat ⌊p.1⌋.toNat), fun _ _ _ _ _ _ => 0, none, none, 1, 1,
      3, 5, 4, 1, 1⟩,
    List.replicate 4 ⟨fun _ _ => (1, ⟨1, 2, fun _ _ => none, fun _ _ => 0, fun _ => none, none, 1, none, false, none, fun _ _ => 1⟩), fun _ _ => some 1,
      (1, 2), fun _ _ => some fun p => (some p.1, some p.2), none⟩, rfl, ?_, ?_, ?_, rfl⟩
  · intro e x hx
    refine ⟨fun _ => rfl, fun g ims h => ?_⟩
    subst h
    have := List.mem_of_getElem? hx
    simp only [pdExample, List.mem_cons, reduceCtorEq, List.not_mem_nil, or_false, false_or, Elem.group.injEq] at this
    rw [this.2]
    simp
  · intro g hg r c
    rw [(List.mem_replicate.1 hg).2]
  · intro g hg r c q hq r' c' _
    rw [(List.mem_replicate.1 hg).2, List.mem_singleton] at hq
    subst hq
    simp only [dzDow, dzWt]
    split <;> norm_num
  · intro K med p
    simp only
    split <;> simp [uoArr]

/-- The images of `moEls`, with a cosmic ray in the second pixel of the second one and constants 2, -3 and 10 added or not. -/
def oqEls (z : Bool) : List (Elem ℚ) :=
  [.single ⟨fun p => p + 5 + (if z then 2 else 0), 0, false⟩,
    .single ⟨fun p => (if p = 1 then 100 else p + 7) + (if z then -3 else 0), 0, false⟩,
    .single ⟨fun p => p + 4 + (if z then 10 else 0), 0, false⟩]

def oqS : OqSetup Unit ℚ where
  rn := ()
  wtype := .unit
  good := none
  rows := 1
  cols := 2
  keep := fun w r c => decide (w r c ≠ 0)
  interp := fun med p => if p.1 < 0 then none else some (med ⌊p.2⌋.toNat ⌊p.1⌋.toNat)
  spline := pmS
  boxMedian := none
  fill := none
  step := 1
  order := 1
  snr := 3
  snr1 := 5
  snr2 := 4
  scale1 := 1
  scale2 := 1

def oqG : OqImage Unit ℚ where
  geo := fun r c => (1, { moGeo with overlap := fun r' c' => if r' = r ∧ c' = c then 1 else 0 })
  err := fun _ _ => some 1
  shape := (1, 2)
  T := fun _ _ => some fun p => (some p.1, some p.2)
  box := none

/-- The flags of the two pixels of all images. -/
def oqShow (sub : Bool) (r : List (Elem ℚ)) : List (Option (List (Bool × Bool))) :=
  (oqFlags oqS sub [oqG, oqG, oqG] r).map fun o => o.map fun f => [(f.1 0 0, f.2 0 0), (f.1 0 1, f.2 0 1)]

-- only the cosmic ray is flagged, with and without the constants; without matching (`global`) good pixels are flagged because of the constants, as by
-- `flag_crs` if the sky is left in the images
example : let hit := some [some [(false, false), (false, false)], some [(false, false), (true, true)], some [(false, false), (false, false)]]
    (skymatch moEnv zmSolve .globMat true true (oqEls true)).map (oqShow true) = hit
    ∧ (skymatch moEnv skSolve .globMat true true (oqEls false)).map (oqShow true) = hit
    ∧ (skymatch moEnv skSolve .mat true false (oqEls false)).map (oqShow false) = hit
    ∧ (skymatch moEnv zmSolve .mat true false (oqEls true)).map (oqShow false) =
      some [some [(false, false), (false, false)], some [(false, false), (true, true)], some [(true, false), (true, false)]]
    ∧ (skymatch moEnv zmSolve .glob true true (oqEls true)).map (oqShow true) =
      some [some [(false, false), (true, false)], some [(false, false), (true, true)], some [(true, false), (false, false)]] := by
  intro hit
  refine ⟨?_, ?_, ?_, ?_, ?_⟩ <;> decide +kernel

end Verif.Thm
