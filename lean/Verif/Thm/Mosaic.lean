import Verif.Thm.Drizzle
import Verif.Thm.SkyAgain

/-! # Sky matching followed by resampling (C171, C172) -/

set_option linter.unusedSectionVars false

namespace Verif.Thm
open Verif.Sky Verif.Drizzle Verif.Resample

section
variable {α : Type} [Field α] [LinearOrder α] [IsStrictOrderedRing α]

/-- The same image, once with its sky subtracted and once not. -/
def MoIm (a b : Im α) : Prop := a.sky = b.sky ∧ a.valid = b.valid ∧ a.data = fun p => b.data p - b.sky

/-- The same element with and without subtraction. -/
def MoElem : Elem α → Elem α → Prop
  | .single a, .single b => MoIm a b
  | .group g as, .group h bs => g = h ∧ List.Forall₂ MoIm as bs
  | _, _ => False

theorem mo_calc (f : (Nat → α) → Option (α × α × α)) (hf : ∀ data s, f (fun p => data p - s) = (f data).map fun r => (r.1 - s, r.2))
    (a b : Im α) (h : MoIm a b) : imCalc (f a.data) a.sky false = imCalc (f b.data) b.sky true := by
  rw [h.2.2, hf]
  cases f b.data <;> rfl

theorem mo_calcs (f : Nat → (Nat → α) → Option (α × α × α))
    (hf : ∀ k data s, f k (fun p => data p - s) = (f k data).map fun r => (r.1 - s, r.2)) (as bs : List (Im α))
    (h : List.Forall₂ MoIm as bs) (n : Nat) :
    (as.zipIdx n).map (fun p => imCalc (f p.2 p.1.data) p.1.sky false) = (bs.zipIdx n).map fun p => imCalc (f p.2 p.1.data) p.1.sky true := by
  induction h generalizing n with
  | nil => rfl
  | cons hq _ ih =>
    rw [List.zipIdx_cons, List.zipIdx_cons, List.map_cons, List.map_cons, ih, mo_calc (f n) (hf n) _ _ hq]

theorem mo_over (env : Env α) (hs : SgShift env) (i j : Nat) (a b : Elem α) (h : MoElem a b) :
    elemOver env false i j a = elemOver env true i j b := by
  cases a with
  | single x =>
    cases b with
    | single y => exact mo_calc _ (fun d s => hs.2 i 0 j d s) x y h
    | group => exact absurd h (by simp [MoElem])
  | group g xs =>
    cases b with
    | single => exact absurd h (by simp [MoElem])
    | group g' ys =>
      simp only [elemOver]
      rw [mo_calcs (fun k => env.over i k j) (fun k d s => hs.2 i k j d s) xs ys h.2]

theorem mo_whole (env : Env α) (hs : SgShift env) (i : Nat) (a b : Elem α) (h : MoElem a b) :
    elemWhole env false i a = elemWhole env true i b := by
  cases a with
  | single x =>
    cases b with
    | single y => exact mo_calc _ (fun d s => hs.1 i 0 d s) x y h
    | group => exact absurd h (by simp [MoElem])
  | group g xs =>
    cases b with
    | single => exact absurd h (by simp [MoElem])
    | group g' ys =>
      simp only [elemWhole]
      rw [mo_calcs (fun k => env.whole i k) (fun k d s => hs.1 i k d s) xs ys h.2]

theorem mo_applyIm (s d : α) (hsd : d = s) (v : Bool) (a b : Im α) (h : MoIm a b) :
    MoIm (applyIm true s d v a) (applyIm false s d v b) := by
  subst hsd
  refine ⟨by simp [applyIm, h.1], rfl, ?_⟩
  simp only [applyIm, if_true, h.2.2]
  funext p
  simp
  ring

theorem mo_applyOne (gl : Bool) (a b : Elem α) (h : MoElem a b) (sky : Option α) :
    MoElem (applyOne gl true a sky) (applyOne gl false b sky) := by
  cases a with
  | single x =>
    cases b with
    | single y =>
      have : x.valid = y.valid := h.2.1
      simp only [applyOne, this]
      exact mo_applyIm _ _ rfl _ _ _ h
    | group => exact absurd h (by simp [MoElem])
  | group g xs =>
    cases b with
    | single => exact absurd h (by simp [MoElem])
    | group g' ys =>
      obtain ⟨rfl, h⟩ := h
      have hv : xs.head?.map (fun im => im.valid) = ys.head?.map fun im => im.valid := by
        cases h with
        | nil => rfl
        | cons hq _ => simp [hq.2.1]
      simp only [applyOne, hv]
      refine ⟨rfl, ?_⟩
      rw [List.forall₂_map_left_iff, List.forall₂_map_right_iff]
      exact h.imp fun a b hab => mo_applyIm _ _ (by ring) _ _ _ hab

theorem mo_apply (gl : Bool) (as bs : List (Elem α)) (h : List.Forall₂ MoElem as bs) (skys : List (Option α)) :
    List.Forall₂ MoElem (applySky gl true as skys) (applySky gl false bs skys) := by
  induction h generalizing skys with
  | nil => simp [applySky]
  | cons hq _ ih =>
    cases skys with
    | nil => simp [applySky]
    | cons s t =>
      simp only [applySky, List.zipWith_cons_cons]
      exact .cons (mo_applyOne gl _ _ hq s) (ih t)

theorem mo_get (as bs : List (Elem α)) (h : List.Forall₂ MoElem as bs) (i : Nat) :
    (as[i]? = none ∧ bs[i]? = none) ∨ ∃ a b, as[i]? = some a ∧ bs[i]? = some b ∧ MoElem a b := by
  induction h generalizing i with
  | nil => simp
  | cons hq _ ih =>
    cases i with
    | zero => exact .inr ⟨_, _, rfl, rfl, hq⟩
    | succ i => simpa using ih i

theorem mo_pair (env : Env α) (hs : SgShift env) (as bs : List (Elem α)) (h : List.Forall₂ MoElem as bs) (i j : Nat) :
    pairAt env false as i j = pairAt env true bs i j := by
  simp only [pairAt]
  rcases mo_get as bs h i with ⟨h1, h2⟩ | ⟨a, b, h1, h2, hab⟩
  · rw [h1, h2]
  · rcases mo_get as bs h j with ⟨h3, h4⟩ | ⟨c, d, h3, h4, hcd⟩
    · rw [h1, h2, h3, h4]
    · rw [h1, h2, h3, h4]
      simp only [mo_over env hs i j a b hab, mo_over env hs j i c d hcd]

theorem mo_values (env : Env α) (hs : SgShift env) (as bs : List (Elem α)) (h : List.Forall₂ MoElem as bs) :
    skyValues env true as = skyValues env false bs := by
  simp only [skyValues, Bool.not_true, Bool.not_false]
  generalize 0 = n
  induction h generalizing n with
  | nil => rfl
  | cons hq _ ih => rw [List.zipIdx_cons, List.zipIdx_cons, List.map_cons, List.map_cons, ih, mo_whole env hs _ _ _ hq]

/-- Sky matching with subtraction of images whose sky is subtracted, and without subtraction of images whose sky is not: the same
outcome, up to the subtraction. -/
theorem mo_skymatch (env : Env α) (hs : SgShift env) (solve : Nat → List ((Nat → α) × α) → Nat → α) (m : Method) (md : Bool)
    (as bs : List (Elem α)) (h : List.Forall₂ MoElem as bs) :
    (skymatch env solve m md true as = none ∧ skymatch env solve m md false bs = none) ∨
      ∃ r r', skymatch env solve m md true as = some r ∧ skymatch env solve m md false bs = some r' ∧ List.Forall₂ MoElem r r' := by
  have hm : List.Forall₂ MoElem (matchPhase env solve md true as) (matchPhase env solve md false bs) := by
    have hA : matA env false as = matA env true bs := by
      funext i j
      simp only [matA, mo_pair env hs as bs h]
    have hW : matW env false as = matW env true bs := by
      funext i j
      simp only [matW, mo_pair env hs as bs h]
    simp only [matchPhase, Bool.not_true, Bool.not_false, hA, hW, h.length_eq]
    exact mo_apply false as bs h _
  have key : ∀ (gl : Bool) (as bs : List (Elem α)), List.Forall₂ MoElem as bs →
      (wholePhase env gl true as = none ∧ wholePhase env gl false bs = none) ∨
      ∃ r r', wholePhase env gl true as = some r ∧ wholePhase env gl false bs = some r' ∧ List.Forall₂ MoElem r r' := by
    intro gl as bs h
    simp only [wholePhase, mo_values env hs as bs h, h.length_eq]
    cases gl
    · exact .inr ⟨_, _, rfl, rfl, mo_apply false as bs h _⟩
    · cases (skyValues env false bs).foldl minStep (some none) with
      | none => exact .inl ⟨rfl, rfl⟩
      | some o => exact .inr ⟨_, _, rfl, rfl, mo_apply true as bs h _⟩
  have h1 : List.Forall₂ MoElem (if m.doMatch then matchPhase env solve md true as else as)
      (if m.doMatch then matchPhase env solve md false bs else bs) := by
    split
    · exact hm
    · exact h
  simp only [skymatch]
  split
  · exact key _ _ _ h1
  · exact .inr ⟨_, _, rfl, rfl, h1⟩

end

section
variable {α : Type} [Field α] [LinearOrder α] [IsStrictOrderedRing α] [FloorRing α] {ν : Type}

/-- Specification: the model given to `Resample` for an image after sky matching: everything but data, sky level and the mark of subtraction is
given; the pixels are taken row by row. -/
def moInput (sub : Bool) (g : Input ν α) (im : Im α) : Input ν α :=
  { g with data := fun r c => some (im.data (r * g.nx + c)), level := some im.sky, subtracted := sub }

/-- Specification: the models for the images of all elements, each with its intensity scale. -/
def moInputs (sub : Bool) (geo : List (α × Input ν α)) (els : List (Elem α)) : List (α × Input ν α) :=
  List.zipWith (fun g im => (g.1, moInput sub g.2 im)) geo (els.flatMap skImages)

theorem mo_pixels (g : Input ν α) (sub : Bool) (im : Im α) : (moInput sub g im).pixels = g.pixels := rfl

theorem mo_weight (g : Input ν α) (sub : Bool) (im : Im α) (rn : ν) (t : DrizType) (good : Option Nat) (r c : Nat) :
    (moInput sub g im).weight rn t good r c = g.weight rn t good r c := rfl

theorem mo_add (rn : ν) (t : DrizType) (good : Option Nat) (s : α) (g : Input ν α) (a b : Im α) (h : MoIm a b) (c : Cell α) :
    addImage rn t good (moInput true g a).science s (moInput true g a) c = addImage rn t good (moInput false g b).science s (moInput false g b) c := by
  have : (moInput true g a).science = (moInput false g b).science := by
    funext r c
    simp [Input.science, moInput, h.2.2]
  rw [this]
  rfl

/-- **C171**: sky matching (any method) with subtraction and then resampling gives the same image as sky matching without subtraction and then
resampling, which subtracts the level recorded; and one fails if the other does. -/
theorem C171_either_way (env : Env α) (hs : SgShift env) (solve : Nat → List ((Nat → α) × α) → Nat → α) (m : Method) (md : Bool)
    (els : List (Elem α)) (h0 : ∀ e ∈ els, ∀ im ∈ skImages e, im.sky = 0) (rn : ν) (t : DrizType) (good : Option Nat)
    (geo : List (α × Input ν α)) :
    (skymatch env solve m md true els).map (fun r => science rn t good (moInputs true geo r)) =
      (skymatch env solve m md false els).map fun r => science rn t good (moInputs false geo r) := by
  have hrel : List.Forall₂ MoElem els els := by
    rw [List.forall₂_same]
    intro e he
    have hz : ∀ im ∈ skImages e, MoIm im im := fun im hi => ⟨rfl, rfl, by simp [h0 e he im hi]⟩
    cases e with
    | single im => exact hz im (by simp [skImages])
    | group g ims => exact ⟨rfl, List.forall₂_same.2 fun im hi => hz im hi⟩
  rcases mo_skymatch env hs solve m md els els hrel with ⟨h1, h2⟩ | ⟨r, r', h1, h2, hr⟩
  · rw [h1, h2]
    rfl
  · rw [h1, h2]
    simp only [Option.map_some, Option.some.injEq]
    have hims : List.Forall₂ MoIm (r.flatMap skImages) (r'.flatMap skImages) := by
      clear h1 h2
      induction hr with
      | nil => exact .nil
      | cons hq _ ih =>
        rename_i a b _ _ _
        rw [List.flatMap_cons, List.flatMap_cons]
        refine List.rel_append ?_ ih
        cases a <;> cases b <;> simp only [MoElem] at hq
        · exact .cons hq .nil
        · exact hq.2
    simp only [science, moInputs]
    generalize (Cell.empty : Cell α) = c
    revert c
    generalize r.flatMap skImages = l at hims
    generalize r'.flatMap skImages = l' at hims
    induction hims generalizing geo with
    | nil => intro c; simp
    | cons hq _ ih =>
      intro c
      cases geo with
      | nil => rfl
      | cons g geo =>
        simp only [List.zipWith_cons_cons, List.foldl_cons]
        rw [mo_add rn t good g.1 g.2 _ _ hq, ih]

/-- Specification: the models of images that show the scene `T` without any sky. -/
def moScene (geo : List (α × Input ν α)) (T : Nat → Nat → α) : List (α × Input ν α) :=
  geo.zipIdx.map fun p =>
    (p.1.1, { p.1.2 with data := fun r c => some (T p.2 (r * p.1.2.nx + c)), level := none, subtracted := true })

theorem mo_zip (sub : Bool) (geo : List (α × Input ν α)) (els : List (Elem α)) (im : Nat → Im α) (hlen : geo.length = els.length)
    (him : ∀ i, i < els.length → els[i]? = some (.single (im i))) :
    moInputs sub geo els = geo.zipIdx.map fun p => (p.1.1, moInput sub p.1.2 (im p.2)) := by
  have hfl : els.flatMap skImages = (List.range els.length).map im := by
    have : els = (List.range els.length).map fun i => Elem.single (im i) := by
      apply List.ext_getElem?
      intro i
      by_cases hi : i < els.length
      · rw [him i hi, List.getElem?_map, List.getElem?_range hi]
        rfl
      · rw [List.getElem?_eq_none (by omega), List.getElem?_eq_none (by simp; omega)]
    rw [this, List.flatMap_map, List.length_map, List.length_range]
    simp only [skImages]
    induction List.range els.length with
    | nil => rfl
    | cons x l ih => rw [List.flatMap_cons, ih, List.map_cons]; rfl
  rw [moInputs, hfl]
  apply List.ext_getElem?
  intro i
  rw [List.getElem?_zipWith, List.getElem?_map, List.getElem?_map, List.getElem?_zipIdx]
  by_cases hi : i < els.length
  · rw [List.getElem?_range hi]
    cases geo[i]? <;> simp
  · rw [List.getElem?_eq_none (l := geo) (by omega)]
    rfl

theorem mo_const (rn : ν) (t : DrizType) (good : Option Nat) (s K : α) (fill : Option α) (geo : List (α × Input ν α)) (hs : ∀ g ∈ geo, g.1 = s)
    (hnn : DzNonneg rn t good geo) (sub : Bool) (im : Nat → Im α) (T : Nat → Nat → α)
    (h : ∀ i < geo.length, ∀ p, (im i).data p - (if sub then 0 else (im i).sky) = T i p + K) :
    let A := science rn t good (geo.zipIdx.map fun p => (p.1.1, moInput sub p.1.2 (im p.2)))
    let B := science rn t good (moScene geo T)
    A.wht = B.wht ∧ A.out fill = if B.wht = 0 then fill else (B.out fill).map fun x => x + s * K := by
  intro A B
  have hmem : ∀ p ∈ geo.zipIdx, p.1 ∈ geo ∧ p.2 < geo.length := by
    intro p hp
    have := List.mem_zipIdx hp
    refine ⟨?_, by omega⟩
    rw [this.2.2]
    exact List.getElem_mem _
  have hA : DzNonneg rn t good (geo.zipIdx.map fun p => (p.1.1, moInput sub p.1.2 (im p.2))) := by
    intro q hq r c hi
    obtain ⟨p, hp, rfl⟩ := List.mem_map.1 hq
    exact hnn p.1 (hmem p hp).1 r c hi
  have hB : DzNonneg rn t good (moScene geo T) := by
    intro q hq r c hi
    obtain ⟨p, hp, rfl⟩ := List.mem_map.1 hq
    exact hnn p.1 (hmem p hp).1 r c hi
  obtain ⟨a1, a2⟩ := C168_mean rn t good _ fill hA (by
    intro q hq r c _ _
    obtain ⟨p, hp, rfl⟩ := List.mem_map.1 hq
    rfl)
  obtain ⟨b1, b2⟩ := C168_mean rn t good _ fill hB (by
    intro q hq r c _ _
    obtain ⟨p, hp, rfl⟩ := List.mem_map.1 hq
    rfl)
  have hW : dzW rn t good (geo.zipIdx.map fun p => (p.1.1, moInput sub p.1.2 (im p.2))) = dzW rn t good (moScene geo T) := by
    simp only [dzW, moScene, List.map_map]
    rfl
  have hS : dzS rn t good (geo.zipIdx.map fun p => (p.1.1, moInput sub p.1.2 (im p.2))) =
      dzS rn t good (moScene geo T) + s * K * dzW rn t good (moScene geo T) := by
    simp only [dzS, dzW, moScene, List.map_map]
    rw [mul_comm (s * K), ← List.sum_map_mul_right, ← List.sum_map_add]
    refine congrArg _ (List.map_congr_left fun p hp => ?_)
    simp only [Function.comp]
    rw [← dz_sum_mul]
    simp only [dzSum]
    rw [← Finset.sum_add_distrib]
    refine Finset.sum_congr rfl fun r _ => ?_
    rw [← Finset.sum_add_distrib]
    refine Finset.sum_congr rfl fun c _ => ?_
    by_cases hi : DzIn p.1.2 r c
    · have h1 : DzIn (moInput sub p.1.2 (im p.2)) r c := hi
      have h2 : DzIn { p.1.2 with data := fun r c => some (T p.2 (r * p.1.2.nx + c)), level := none, subtracted := true } r c := hi
      have e1 : dzDow rn t good (moInput sub p.1.2 (im p.2)) r c = dzDow rn t good p.1.2 r c := rfl
      have e2 : dzDow rn t good { p.1.2 with data := fun r c => some (T p.2 (r * p.1.2.nx + c)), level := none, subtracted := true } r c =
        dzDow rn t good p.1.2 r c := rfl
      have hv := h p.2 (hmem p hp).2 (r * p.1.2.nx + c)
      have e3 : dzSky (p.1.1, moInput sub p.1.2 (im p.2)) r c = (T p.2 (r * p.1.2.nx + c) + K) * s := by
        rw [← hv, ← hs p.1 (hmem p hp).1]
        rfl
      have e4 : dzSky (p.1.1, { p.1.2 with data := fun r c => some (T p.2 (r * p.1.2.nx + c)), level := none, subtracted := true }) r c =
          T p.2 (r * p.1.2.nx + c) * s := by
        simp [dzSky, hs p.1 (hmem p hp).1]
      rw [if_pos h1, if_pos h2, if_pos h2, e1, e2, e3, e4]
      ring
    · have h1 : ¬ DzIn (moInput sub p.1.2 (im p.2)) r c := hi
      have h2 : ¬ DzIn { p.1.2 with data := fun r c => some (T p.2 (r * p.1.2.nx + c)), level := none, subtracted := true } r c := hi
      rw [if_neg h1, if_neg h2, if_neg h2, add_zero]
  refine ⟨by rw [a1, b1, hW], ?_⟩
  rw [a2, hW, hS, b2, b1]
  split
  · rfl
  · rename_i hw
    rw [Option.map_some, add_div, mul_div_assoc, div_self hw, mul_one]

/-- **C172**: a mosaic without steps.  Images that show the scene, each raised by a level of its own, measured differences of sky that are those
of the levels, and every two images connected through overlaps: after sky matching and resampling the mosaic is that of the scene itself,
raised everywhere by one constant: the lowest of the levels if matched down, the highest if matched up. -/
theorem C172_seamless (env : Env α) (solve : Nat → List ((Nat → α) × α) → Nat → α) (md sub : Bool) (els : List (Elem α)) (hne : els ≠ [])
    (hsolve : SkLeastSquares env solve (!sub) els) (T : Nat → Nat → α) (L : Nat → α)
    (hels : ∀ i < els.length, ∃ v, els[i]? = some (.single ⟨fun p => T i p + L i, 0, v⟩))
    (hL : ∀ i j s t, SkOverlap env (!sub) els i j s t → s - t = L i - L j)
    (hc : ∀ i < els.length, ∀ j < els.length, Relation.TransGen (SkLinked env (!sub) els) i j) :
    ∃ r K, skymatch env solve .mat md sub els = some r ∧
      (md = true → IsLeast {x | ∃ i < els.length, x = L i} K) ∧ (md = false → IsGreatest {x | ∃ i < els.length, x = L i} K) ∧
      ∀ (ν : Type) (rn : ν) (t : DrizType) (good : Option Nat) (s : α) (geo : List (α × Input ν α)) (fill : Option α),
        geo.length = els.length → (∀ g ∈ geo, g.1 = s) → DzNonneg rn t good geo →
        let mosaic := science rn t good (moInputs sub geo r)
        let scene := science rn t good (moScene geo T)
        mosaic.wht = scene.wht ∧ mosaic.out fill = if scene.wht = 0 then fill else (scene.out fill).map fun x => x + s * K := by
  have hpos : 0 < els.length := List.length_pos_of_ne_nil hne
  obtain ⟨r, hr, hlen, c, -, h2, h3, h4, h5, h6⟩ := C43_direction env solve md sub els
  have hd : ∀ i < els.length, ∀ j < els.length, ∃ v w, skDelta env solve sub els i = some v ∧ skDelta env solve sub els j = some w ∧
      v - w = L i - L j := fun i hi j hj => C44_consistent env solve sub els hsolve L hL i j (hc i hi j hj)
  have hsome : ∀ i < els.length, (skDelta env solve sub els i).isSome := by
    intro i hi
    obtain ⟨v, w, hv, -⟩ := hd i hi i hi
    simp [hv]
  have hdiff : ∀ i < els.length, ∀ j < els.length, L i - c i = L j - c j := by
    intro i hi j hj
    obtain ⟨v, w, hv, hw, e⟩ := hd i hi j hj
    have := h3 i j v w hi hj hv hw
    linarith
  have him : ∀ i < els.length, ∃ im : Im α, r[i]? = some (.single im) ∧
      ∀ p, im.data p - (if sub then 0 else im.sky) = T i p + (L 0 - c 0) := by
    intro i hi
    obtain ⟨v, hv⟩ := Option.isSome_iff_exists.1 (hsome i hi)
    obtain ⟨b, hb⟩ := hels i hi
    obtain ⟨e', he', hch, -⟩ := h2 i _ v hb hv
    cases e' with
    | group => exact absurd hch (by simp [SkChanged])
    | single im =>
      refine ⟨im, he', fun p => ?_⟩
      obtain ⟨k1, k2, k3⟩ := hch
      have := hdiff i hi 0 hpos
      cases sub
      · rw [k3 rfl]
        simp only [Bool.false_eq_true, if_false]
        rw [k1]
        simp only
        linarith
      · have := k2 rfl p
        rw [k1] at this
        simp only at this
        simp only [if_true, sub_zero]
        linarith
  refine ⟨r, L 0 - c 0, hr, ?_, ?_, ?_⟩
  · intro hm
    constructor
    · obtain ⟨i, hi, -, hz⟩ := h6 ⟨0, hpos, hsome 0 hpos⟩
      exact ⟨i, hi, by have := hdiff i hi 0 hpos; rw [hz] at this; linarith⟩
    · rintro x ⟨i, hi, rfl⟩
      have := h4 hm i hi (hsome i hi)
      have := hdiff i hi 0 hpos
      linarith
  · intro hm
    constructor
    · obtain ⟨i, hi, -, hz⟩ := h6 ⟨0, hpos, hsome 0 hpos⟩
      exact ⟨i, hi, by have := hdiff i hi 0 hpos; rw [hz] at this; linarith⟩
    · rintro x ⟨i, hi, rfl⟩
      have := h5 hm i hi (hsome i hi)
      have := hdiff i hi 0 hpos
      linarith
  · intro ν rn t good s geo fill hg hs hnn
    classical
    let im : Nat → Im α := fun i => if h : i < els.length then (him i h).choose else ⟨fun _ => 0, 0, false⟩
    have him' : ∀ i, i < els.length → r[i]? = some (.single (im i)) ∧
        ∀ p, (im i).data p - (if sub then 0 else (im i).sky) = T i p + (L 0 - c 0) := by
      intro i hi
      simp only [im, dif_pos hi]
      exact (him i hi).choose_spec
    rw [mo_zip sub geo r im (by omega) fun i hi => (him' i (by omega)).1]
    exact mo_const rn t good s _ fill geo hs hnn sub im T fun i hi => (him' i (by omega)).2

end

/-! ## Examples -/

/-- Three images in a row that overlap their neighbours; the measured sky is pixel 0. -/
def moEnv : Env ℚ where
  whole _ _ d := some (d 0, 10, 1)
  over e _ e' d := if e + 1 = e' ∨ e' + 1 = e then some (d 0, 3, 1) else none

theorem mo_env_shift : SgShift moEnv := by
  refine ⟨fun _ _ _ _ => rfl, fun e k e' d s => ?_⟩
  simp only [moEnv]
  split <;> rfl

/-- C171 applies to two images and a group. -/
example : SgShift moEnv ∧ ∀ e ∈ skEls, ∀ im ∈ skImages e, im.sky = 0 := by
  refine ⟨mo_env_shift, ?_⟩
  simp [skEls, skImages]

/-- Images of the scene with value `p` at pixel `p`, with levels 5, 7 and 4. -/
def moEls : List (Elem ℚ) :=
  [.single ⟨fun p => p + 5, 0, false⟩, .single ⟨fun p => p + 7, 0, false⟩, .single ⟨fun p => p + 4, 0, false⟩]

theorem mo_links : ∀ i < 3, ∀ j < 3, Relation.TransGen (SkLinked moEnv false moEls) i j := by
  have link : ∀ i j : Nat, i < 3 → j < 3 → (i + 1 = j ∨ j + 1 = i) → SkLinked moEnv false moEls i j := by
    intro i j hi hj h
    have h01 : SkLinked moEnv false moEls 0 1 :=
      ⟨0 + 5, 0 + 7, by omega, _, _, 3, 3, 1, 1, rfl, rfl, rfl, rfl, by norm_num, by norm_num, by norm_num, by norm_num⟩
    have h12 : SkLinked moEnv false moEls 1 2 :=
      ⟨0 + 7, 0 + 4, by omega, _, _, 3, 3, 1, 1, rfl, rfl, rfl, rfl, by norm_num, by norm_num, by norm_num, by norm_num⟩
    have symm : ∀ a b, SkLinked moEnv false moEls a b → SkLinked moEnv false moEls b a := fun a b ⟨s, t, h⟩ => ⟨t, s, sk_overlap_symm h⟩
    interval_cases i <;> interval_cases j <;> first | omega | exact h01 | exact h12 | exact symm _ _ h01 | exact symm _ _ h12
  have l01 := Relation.TransGen.single (link 0 1 (by omega) (by omega) (by omega))
  have l10 := Relation.TransGen.single (link 1 0 (by omega) (by omega) (by omega))
  have l12 := Relation.TransGen.single (link 1 2 (by omega) (by omega) (by omega))
  have l21 := Relation.TransGen.single (link 2 1 (by omega) (by omega) (by omega))
  intro i hi j hj
  interval_cases i <;> interval_cases j
  · exact l01.trans l10
  · exact l01
  · exact l01.trans l12
  · exact l10
  · exact l10.trans l01
  · exact l12
  · exact l21.trans l10
  · exact l21
  · exact l21.trans l12

/-- The hypotheses of C172 for these images. -/
example : SkLeastSquares moEnv skSolve (!true) moEls ∧
    (∀ i < moEls.length, ∃ v, moEls[i]? = some (.single ⟨fun p => (p : ℚ) + [5, 7, 4].getD i 0, 0, v⟩)) ∧
    (∀ i j s t, SkOverlap moEnv (!true) moEls i j s t → s - t = ([5, 7, 4] : List ℚ).getD i 0 - ([5, 7, 4] : List ℚ).getD j 0) ∧
    ∀ i < moEls.length, ∀ j < moEls.length, Relation.TransGen (SkLinked moEnv (!true) moEls) i j := by
  refine ⟨?_, ?_, ?_, mo_links⟩
  · intro x
    have h0 : skSq moEls.length (skEqs moEnv (!true) moEls) (skSolve moEls.length (skEqs moEnv (!true) moEls)) = 0 := by decide +kernel
    rw [h0]
    exact List.sum_nonneg fun y hy => by
      obtain ⟨q, _, rfl⟩ := List.mem_map.1 hy
      exact sq_nonneg _
  · intro i hi
    have : i < 3 := hi
    interval_cases i <;> exact ⟨false, rfl⟩
  · rintro i j s t ⟨-, x, y, w, z, a, b, hx, hy, h1, h2, -⟩
    have val : ∀ (i j : Nat) x s w a, moEls[i]? = some x → elemOver moEnv (!true) i j x = (some s, w, a) → s = ([5, 7, 4] : List ℚ).getD i 0 := by
      intro i j x s w a hx h
      have hi : i < 3 := (List.getElem?_eq_some_iff.1 hx).1
      interval_cases i <;>
        (simp only [moEls, List.getElem?_cons_zero, List.getElem?_cons_succ, Option.some.injEq] at hx
         subst hx
         simp only [elemOver, moEnv, imCalc] at h
         split at h
         · simp at h
         · rename_i h'
           split at h'
           · simp only [Option.some.injEq, Prod.mk.injEq] at h'
             simp only [Prod.mk.injEq, Option.some.injEq] at h
             simp only [Bool.not_true, Bool.false_eq_true, if_false] at h
             rw [← h.1, ← h'.1]
             simp
           · simp at h')
    rw [val i j x s w a hx h1, val j i y t z b hy h2]

/-- A model of two pixels, of which the second falls on the output pixel. -/
def moGeo : Input Unit ℚ where
  ny := 1
  nx := 2
  data := fun _ _ => none
  dq := fun _ _ => 0
  vars := fun _ => none
  sky := none
  time := 1
  level := none
  subtracted := false
  box := none
  overlap := fun _ c => if c = 1 then 1 else 0

/-- The mosaic of these images, matched down: the scene plus 4, at pixel 1. -/
example : (skymatch moEnv skSolve .mat true true moEls).map (fun r =>
    (science () .unit none (moInputs true (List.replicate 3 (1, moGeo)) r)).out none) = some (some (1 + 4)) := by decide +kernel

end Verif.Thm
