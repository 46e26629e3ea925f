import Verif.Model.JumpStep
import Verif.Proof.Snowball
import Mathlib.Data.Option.Basic

/-! Helper lemmas about the jump step: the snowball step and the shower search depend only on the pixels of the exposure. -/

set_option linter.unusedSectionVars false

namespace Verif.JumpStep

open Verif.Jump (Img finite nanmedian)
open Verif.Snowball Verif.Shower

variable {α : Type} [Field α] [LinearOrder α]

/-- Images that agree on the detector. -/
def SameImg {β : Type} (nr nc : Nat) (p q : Img β) : Prop := ∀ r < nr, ∀ c < nc, p r c = q r c

/-- Arrays that agree on the exposure. -/
def Same {β : Type} (ni ng nr nc : Nat) (a b : Nat → Nat → Img β) : Prop :=
  ∀ i < ni, ∀ g < ng, SameImg nr nc (a i g) (b i g)

/-- A search for regions that looks only at the detector. -/
def Local (nr nc : Nat) (f : Img Nat → List (Ellipse α)) : Prop := ∀ p q, SameImg nr nc p q → f p = f q

theorem all_congr {β : Type} (l : List β) (f g : β → Bool) (h : ∀ x ∈ l, f x = g x) : l.all f = l.all g := by
  induction l with
  | nil => rfl
  | cons x l ih =>
    rw [List.all_cons, List.all_cons, h x (List.mem_cons_self ..), ih fun y hy => h y (List.mem_cons_of_mem _ hy)]

theorem all_plane (nr nc : Nat) (p q : Img Nat) (f : Nat → Bool) (h : SameImg nr nc p q) :
    ((List.range nr).all fun r => (List.range nc).all fun c => f (p r c))
      = ((List.range nr).all fun r => (List.range nc).all fun c => f (q r c)) := by
  refine all_congr _ _ _ fun r hr => all_congr _ _ _ fun c hc => ?_
  rw [h r (List.mem_range.mp hr) c (List.mem_range.mp hc)]

/-! ### Snowballs -/

/-- `next_new_sat` in a group. -/
def nextOf (e : Env α) (ngrps intg group : Nat) (s : St) : Option (Img Nat) :=
  if group < ngrps - 1 then some (newSat e (s.gdq intg (group + 1)) (s.gdq intg group)) else s.next

/-- Saturated regions of a plane. -/
def satsOf (e : Env α) (p : Img Nat) : List (Ellipse α) := e.findSat fun r c => p r c &&& e.sat

/-- The part of `flagGroup` after `next_new_sat`. -/
def body (e : Env α) (ngrps nrows ncols intg group : Nat) (s : St) (nx : Option (Img Nat)) (nextNew : Img Nat) : St :=
  let sats := satsOf e (newSat e (s.gdq intg group) (s.gdq intg (group - 1)))
  let jumps := e.findJump (fun r c => s.gdq intg group r c &&& e.jump)
  let r : Cube × Img Nat × List (Ellipse α) :=
    if e.satRequired then
      ((extendSaturation e nrows ncols group sats (s.gdq intg) (s.persist intg)).1,
        (extendSaturation e nrows ncols group sats (s.gdq intg) (s.persist intg)).2,
        selectSnowballs e nrows ngrps group jumps sats (satsOf e nextNew))
    else (s.gdq intg, s.persist intg, jumps)
  { gdq := fun i => if i = intg then extendEllipses e ngrps nrows ncols group 0 true e.expandFactor r.2.2 r.1 else s.gdq i
    persist := fun i => if i = intg then r.2.1 else s.persist i
    next := nx }

theorem flagGroup_eq (e : Env α) (ngrps nrows ncols intg group : Nat) (s : St) :
    flagGroup e ngrps nrows ncols intg group s
      = (nextOf e ngrps intg group s).map fun n => body e ngrps nrows ncols intg group s (nextOf e ngrps intg group s) n := by
  simp only [flagGroup, nextOf, body, satsOf]
  split <;> rename_i h <;> rw [h] <;> rfl

/-- States that agree on the exposure. -/
structure SameSt (ni ng nr nc : Nat) (s t : St) : Prop where
  gdq : Same ni ng nr nc s.gdq t.gdq
  persist : s.persist = t.persist
  next : Option.Rel (SameImg nr nc) s.next t.next

theorem newSat_same (e : Env α) (nr nc : Nat) (p q p' q' : Img Nat) (h : SameImg nr nc p p') (h' : SameImg nr nc q q') :
    SameImg nr nc (newSat e p q) (newSat e p' q') := by
  intro r hr c hc
  simp only [newSat, h r hr c hc, h' r hr c hc]

theorem satsOf_same (e : Env α) (nr nc : Nat) (hl : Local nr nc e.findSat) (p q : Img Nat) (h : SameImg nr nc p q) :
    satsOf e p = satsOf e q :=
  hl _ _ fun r hr c hc => by simp only [h r hr c hc]

theorem jumpsOf_same (e : Env α) (nr nc : Nat) (hl : Local nr nc e.findJump) (p q : Img Nat) (h : SameImg nr nc p q) :
    (e.findJump fun r c => p r c &&& e.jump) = e.findJump fun r c => q r c &&& e.jump :=
  hl _ _ fun r hr c hc => by simp only [h r hr c hc]

theorem extendEllipses_same (e : Env α) (hjs : e.jump &&& e.sat = 0) (ng nr nc grp num : Nat) (byRatio : Bool) (x : α)
    (els : List (Ellipse α)) (a b : Cube) (h : ∀ g < ng, SameImg nr nc (a g) (b g)) :
    ∀ g < ng, SameImg nr nc (extendEllipses e ng nr nc grp num byRatio x els a g)
      (extendEllipses e ng nr nc grp num byRatio x els b g) := by
  classical
  intro g hg r hr c hc
  rw [extendEllipses_eq e hjs, extendEllipses_eq e hjs, h g hg r hr c hc]
  apply if_congr _ rfl rfl
  constructor
  · rintro ⟨h1, h2, h3⟩
    exact ⟨h1, h2, fun g' a1 a2 => by rw [← h g' (by omega) r hr c hc]; exact h3 g' a1 a2⟩
  · rintro ⟨h1, h2, h3⟩
    exact ⟨h1, h2, fun g' a1 a2 => by rw [h g' (by omega) r hr c hc]; exact h3 g' a1 a2⟩

theorem nextOf_same (e : Env α) (ni ng nr nc intg group : Nat) (hi : intg < ni) (hg : group < ng) (s t : St)
    (h : SameSt ni ng nr nc s t) :
    Option.Rel (SameImg nr nc) (nextOf e ng intg group s) (nextOf e ng intg group t) := by
  simp only [nextOf]
  split
  · exact Option.Rel.some (newSat_same e nr nc _ _ _ _ (h.gdq intg hi _ (by omega)) (h.gdq intg hi _ hg))
  · exact h.next

theorem body_same (e : Env α) (hjs : e.jump &&& e.sat = 0) (ni ng nr nc intg group : Nat) (hs : Local nr nc e.findSat)
    (hj : Local nr nc e.findJump) (hi : intg < ni) (hg : group < ng) (s t : St)
    (h : SameSt ni ng nr nc s t) (n m : Img Nat) (hnm : SameImg nr nc n m) (o o' : Option (Img Nat))
    (ho : Option.Rel (SameImg nr nc) o o') :
    SameSt ni ng nr nc (body e ng nr nc intg group s o n) (body e ng nr nc intg group t o' m) := by
  classical
  have e1 := satsOf_same e nr nc hs _ _ (newSat_same e nr nc _ _ _ _ (h.gdq intg hi _ hg)
    (h.gdq intg hi (group - 1) (by omega)))
  have e2 := jumpsOf_same e nr nc hj _ _ (h.gdq intg hi _ hg)
  have e3 := satsOf_same e nr nc hs _ _ hnm
  simp only [body, e1, e2, e3]
  generalize satsOf e (newSat e (t.gdq intg group) (t.gdq intg (group - 1))) = sats
  generalize (e.findJump fun r c => t.gdq intg group r c &&& e.jump) = jumps
  have ex : ∀ g < ng, SameImg nr nc ((extendSaturation e nr nc group sats (s.gdq intg) (s.persist intg)).1 g)
      ((extendSaturation e nr nc group sats (t.gdq intg) (t.persist intg)).1 g) := by
    intro g hg' r hr c hc
    rw [(extendSaturation_eq e nr nc group sats _ _).1, (extendSaturation_eq e nr nc group sats _ _).1,
      h.gdq intg hi g hg' r hr c hc]
  have ep : (extendSaturation e nr nc group sats (s.gdq intg) (s.persist intg)).2
      = (extendSaturation e nr nc group sats (t.gdq intg) (t.persist intg)).2 := by
    funext r c
    rw [(extendSaturation_eq e nr nc group sats _ _).2, (extendSaturation_eq e nr nc group sats _ _).2, h.persist]
  refine ⟨?_, ?_, ho⟩
  · intro i hi' g hg'
    simp only
    split
    · split
      · exact extendEllipses_same e hjs ng nr nc group 0 true _ _ _ _ ex g hg'
      · exact extendEllipses_same e hjs ng nr nc group 0 true _ _ _ _ (fun g hg => h.gdq intg hi g hg) g hg'
    · exact h.gdq i hi' g hg'
  · funext i
    simp only
    split
    · split
      · exact ep
      · rw [h.persist]
    · rw [h.persist]

theorem flagGroup_same (e : Env α) (hjs : e.jump &&& e.sat = 0) (ni ng nr nc intg group : Nat) (hs : Local nr nc e.findSat)
    (hj : Local nr nc e.findJump) (hi : intg < ni) (hg : group < ng) (s t : St) (h : SameSt ni ng nr nc s t) :
    Option.Rel (SameSt ni ng nr nc) (flagGroup e ng nr nc intg group s) (flagGroup e ng nr nc intg group t) := by
  have hn := nextOf_same e ni ng nr nc intg group hi hg s t h
  rw [flagGroup_eq, flagGroup_eq]
  cases hx : nextOf e ng intg group s with
  | none =>
    rw [hx] at hn
    cases hy : nextOf e ng intg group t with
    | none => exact Option.Rel.none
    | some y => rw [hy] at hn; cases hn
  | some x =>
    rw [hx] at hn
    cases hy : nextOf e ng intg group t with
    | none => rw [hy] at hn; cases hn
    | some y =>
      rw [hy] at hn
      cases hn with
      | some hxy =>
        exact Option.Rel.some (body_same e hjs ni ng nr nc intg group hs hj hi hg s t h x y hxy _ _ (Option.Rel.some hxy))

theorem groupCount_same (e : Env α) (ni ng nr nc intg group : Nat) (hs : Local nr nc e.findSat)
    (hj : Local nr nc e.findJump) (hi : intg < ni) (hg : group < ng) (s t : St) (h : SameSt ni ng nr nc s t) :
    groupCount e ng nr intg group s = groupCount e ng nr intg group t := by
  have e1 := satsOf_same e nr nc hs _ _ (newSat_same e nr nc _ _ _ _ (h.gdq intg hi _ hg)
    (h.gdq intg hi (group - 1) (by omega)))
  have e2 := jumpsOf_same e nr nc hj _ _ (h.gdq intg hi _ hg)
  have e3 : satsOf e (if group < ng - 1 then newSat e (s.gdq intg (group + 1)) (s.gdq intg group)
        else s.next.getD fun _ _ => 0)
      = satsOf e (if group < ng - 1 then newSat e (t.gdq intg (group + 1)) (t.gdq intg group)
        else t.next.getD fun _ _ => 0) := by
    split
    · exact satsOf_same e nr nc hs _ _ (newSat_same e nr nc _ _ _ _ (h.gdq intg hi _ (by omega)) (h.gdq intg hi _ hg))
    · have hn := h.next
      cases hx : s.next with
      | none =>
        cases hy : t.next with
        | none => rfl
        | some y => rw [hx, hy] at hn; cases hn
      | some x =>
        cases hy : t.next with
        | none => rw [hx, hy] at hn; cases hn
        | some y =>
          rw [hx, hy] at hn
          cases hn with
          | some hxy => exact satsOf_same e nr nc hs _ _ hxy
  simp only [satsOf] at e1 e3
  simp only [groupCount, e1, e2, e3]

theorem loop_same (e : Env α) (hjs : e.jump &&& e.sat = 0) (ni ng nr nc : Nat) (hs : Local nr nc e.findSat)
    (hj : Local nr nc e.findJump) (qs : List (Nat × Nat)) :
    (∀ q ∈ qs, q.1 < ni ∧ q.2 < ng) → ∀ s t : St, SameSt ni ng nr nc s t →
    Option.Rel (SameSt ni ng nr nc) (flagLoop e ng nr nc qs s) (flagLoop e ng nr nc qs t) ∧
    countLoop e ng nr nc qs s = countLoop e ng nr nc qs t := by
  induction qs with
  | nil => intro _ s t h; exact ⟨Option.Rel.some h, rfl⟩
  | cons q qs ih =>
    intro hq s t h
    obtain ⟨h1, h2⟩ := hq q (List.mem_cons_self ..)
    have hc := groupCount_same e ni ng nr nc q.1 q.2 hs hj h1 h2 s t h
    have hr := flagGroup_same e hjs ni ng nr nc q.1 q.2 hs hj h1 h2 s t h
    simp only [flagLoop, countLoop, hc]
    cases hx : flagGroup e ng nr nc q.1 q.2 s <;> cases hy : flagGroup e ng nr nc q.1 q.2 t <;> rw [hx, hy] at hr <;>
      cases hr
    · exact ⟨Option.Rel.none, rfl⟩
    · rename_i hxy
      obtain ⟨i1, i2⟩ := ih (fun q hq' => hq q (List.mem_cons_of_mem _ hq')) _ _ hxy
      exact ⟨i1, congrArg _ i2⟩

theorem mem_sched (nints ngrps : Nat) (q : Nat × Nat) (h : q ∈ schedule nints ngrps) : q.1 < nints ∧ q.2 < ngrps := by
  unfold schedule at h
  simp only [List.mem_flatMap, List.mem_range, List.mem_map, List.mem_range'_1] at h
  obtain ⟨i, hi, g, hg, rfl⟩ := h
  exact ⟨hi, by simp only; omega⟩

theorem large_same (e : Env α) (hjs : e.jump &&& e.sat = 0) (ni ng nr nc : Nat) (hs : Local nr nc e.findSat)
    (hj : Local nr nc e.findJump) (a b : Cube4) (h : Same ni ng nr nc a b) :
    Option.Rel (fun x y => Same ni ng nr nc x.1 y.1 ∧ x.2 = y.2) (large e ni ng nr nc a) (large e ni ng nr nc b) := by
  obtain ⟨h1, h2⟩ := loop_same e hjs ni ng nr nc hs hj (schedule ni ng) (mem_sched ni ng)
    { gdq := a, persist := fun _ _ _ => 0, next := none } { gdq := b, persist := fun _ _ _ => 0, next := none }
    ⟨h, rfl, Option.Rel.none⟩
  simp only [large, flagLargeEvents, h2]
  cases hx : flagLoop e ng nr nc (schedule ni ng) { gdq := a, persist := fun _ _ _ => 0, next := none } <;>
    cases hy : flagLoop e ng nr nc (schedule ni ng) { gdq := b, persist := fun _ _ _ => 0, next := none } <;>
    rw [hx, hy] at h1 <;> cases h1
  · exact Option.Rel.none
  · rename_i hst
    refine Option.Rel.some ⟨?_, rfl⟩
    intro i hi g hg r hr c hc
    simp only [persistFlags]
    split
    · simp only [hst.gdq i hi g hg r hr c hc, hst.persist]
    · exact hst.gdq i hi g hg r hr c hc

/-! ### Showers -/

theorem countDnu_same (dnu ni ng nr nc : Nat) (a b : Cube4) (h : Same ni ng nr nc a b) :
    countDnu dnu ni ng nr nc a = countDnu dnu ni ng nr nc b := by
  simp only [countDnu]
  congr 1
  refine List.map_congr_left fun i hi => ?_
  congr 1
  refine List.filter_congr fun g hg => ?_
  exact all_plane nr nc _ _ (fun w => decide (w &&& dnu ≠ 0)) (h i (List.mem_range.mp hi) g (List.mem_range.mp hg))

theorem firstGood_same (dnu ng nr nc : Nat) (a b : Nat → Img Nat) (h : ∀ g < ng, SameImg nr nc (a g) (b g)) :
    firstGood dnu ng nr nc a = firstGood dnu ng nr nc b := by
  simp only [firstGood]
  congr 1
  have : ∀ l : List Nat, (∀ g ∈ l, g < ng) →
      l.find? (fun g => !((List.range nr).all fun r => (List.range nc).all fun c => decide (a g r c &&& dnu ≠ 0)))
        = l.find? (fun g => !((List.range nr).all fun r => (List.range nc).all fun c => decide (b g r c &&& dnu ≠ 0))) := by
    intro l hl
    induction l with
    | nil => rfl
    | cons g l ih =>
      have := all_plane nr nc _ _ (fun w => decide (w &&& dnu ≠ 0)) (h g (hl g (List.mem_cons_self ..)))
      simp only [List.find?_cons, this, ih fun x hx => hl x (List.mem_cons_of_mem _ hx)]
  exact this _ fun g hg => List.mem_range.mp hg

theorem maskRef_same (e : Env α) (ni ng nr nc : Nat) (pdq : Img Nat) (a b : Cube4) (h : Same ni ng nr nc a b) :
    Same ni ng nr nc (maskRef e pdq a) (maskRef e pdq b) := by
  intro i hi g hg r hr c hc
  simp only [maskRef, h i hi g hg r hr c hc]

/-- The sample is ignored by the shower search. -/
def Ignored (e : Env α) (w : Nat) : Prop :=
  w = e.jump + e.dnu ∨ w = e.sat + e.dnu ∨ w = e.sat ∨ w = e.jump ∨ w = e.dnu

/-- Data that agree on the exposure, except where the sample is ignored. -/
def SameData (e : Env α) (ni ng nr nc : Nat) (gdq : Cube4) (d d' : Nat → Nat → Nat → Nat → Option α) : Prop :=
  ∀ i < ni, ∀ g < ng, ∀ r < nr, ∀ c < nc, d i g r c = d' i g r c ∨ Ignored e (gdq i g r c)

theorem firstDiff_same (e : Env α) (ni ng nr nc : Nat) (a b : Cube4) (d d' : Nat → Nat → Nat → Nat → Option α)
    (h : Same ni ng nr nc a b) (hd : SameData e ni ng nr nc a d d') (i g r c : Nat) (hi : i < ni) (hg : g + 1 < ng)
    (hr : r < nr) (hc : c < nc) : firstDiff e d a i g r c = firstDiff e d' b i g r c := by
  have key : ∀ g < ng, nanInvalid e (a i g r c) (d i g r c) = nanInvalid e (b i g r c) (d' i g r c) := by
    intro g hg
    rw [← h i hi g hg r hr c hc]
    rcases hd i hi g hg r hr c hc with h1 | h1
    · rw [h1]
    · simp only [nanInvalid]
      simp only [Ignored] at h1
      rw [if_pos h1, if_pos h1]
  simp only [firstDiff]
  rw [key g (by omega), key (g + 1) hg]

theorem ratio_same (e : Env α) (det : Det α) (ni ng nr nc : Nat) (a b : Cube4) (d d' : Nat → Nat → Nat → Nat → Option α)
    (rn : Img (Option α)) (h : Same ni ng nr nc a b) (hd : SameData e ni ng nr nc a d d') (i g : Nat) (hi : i < ni)
    (hg1 : 1 ≤ g) (hg : g < ng) :
    SameImg nr nc (ratio e det ni ng d rn a i g) (ratio e det ni ng d' rn b i g) := by
  intro r hr c hc
  have fd := fun j hj k hk => firstDiff_same e ni ng nr nc a b d d' h hd j k r c hj hk hr hc
  have l1 : ((List.range ni).map fun j => firstDiff e d a j (g - 1) r c)
      = (List.range ni).map fun j => firstDiff e d' b j (g - 1) r c :=
    List.map_congr_left fun j hj => fd j (List.mem_range.mp hj) _ (by omega)
  have l2 : ((List.range ni).flatMap fun j => (List.range (ng - 1)).map fun k => firstDiff e d a j k r c)
      = (List.range ni).flatMap fun j => (List.range (ng - 1)).map fun k => firstDiff e d' b j k r c := by
    rw [List.flatMap, List.flatMap]
    congr 1
    refine List.map_congr_left fun j hj => List.map_congr_left fun k hk => ?_
    have := List.mem_range.mp hk
    exact fd j (List.mem_range.mp hj) k (by omega)
  simp only [ratio]
  rw [l1, l2, fd i hi (g - 1) (by omega)]

theorem convolveFast_same (nr nc half : Nat) (k : Int → Int → α) (x y : Img (Option α)) (h : SameImg nr nc x y) :
    SameImg nr nc (convolveFast nr nc half k x) (convolveFast nr nc half k y) := by
  intro r hr c hc
  have hin : ∀ i j : Int, inside nr nc i j = true → x i.toNat j.toNat = y i.toNat j.toNat := by
    intro i j hij
    simp only [inside, decide_eq_true_eq] at hij
    exact h _ (by omega) _ (by omega)
  have h1 : (fun i j : Int => if inside nr nc i j then (x i.toNat j.toNat).getD 0 else 0)
      = fun i j : Int => if inside nr nc i j then (y i.toNat j.toNat).getD 0 else 0 := by
    funext i j
    split
    · rename_i hij; rw [hin i j hij]
    · rfl
  have h2 : (fun i j : Int => if inside nr nc i j then (if (x i.toNat j.toNat).isSome then (1 : α) else 0) else 1)
      = fun i j : Int => if inside nr nc i j then (if (y i.toNat j.toNat).isSome then (1 : α) else 0) else 1 := by
    funext i j
    split
    · rename_i hij; rw [hin i j hij]
    · rfl
  simp only [convolveFast, h1, h2, h r hr c hc]

theorem emission_same (e : Env α) (det : Det α) (nr nc : Nat) (p p' pdq : Img Nat) (x y : Img (Option α))
    (hp : SameImg nr nc p p') (h : SameImg nr nc x y) : emission e det nr nc p pdq x = emission e det nr nc p' pdq y := by
  funext r c
  simp only [emission]
  split
  · rename_i hrc
    have hm : SameImg nr nc (masked e p pdq x) (masked e p' pdq y) := by
      intro r hr c hc
      simp only [masked, hp r hr c hc, h r hr c hc]
    rw [convolveFast_same nr nc det.half det.kernel _ _ hm r hrc.1 c hrc.2]
  · rfl

theorem showers_same (e : Env α) (det : Det α) (ni ng nr nc : Nat) (a b : Cube4) (d d' : Nat → Nat → Nat → Nat → Option α)
    (rn : Img (Option α)) (pdq : Img Nat) (h : Same ni ng nr nc a b) (hd : SameData e ni ng nr nc a d d') :
    showers e det ni ng nr nc d rn pdq a = showers e det ni ng nr nc d' rn pdq b := by
  have hm := maskRef_same e ni ng nr nc pdq a b h
  simp only [showers, List.flatMap]
  congr 1
  refine List.map_congr_left fun i hi => ?_
  have hi' := List.mem_range.mp hi
  rw [firstGood_same e.dnu ng nr nc _ _ (hm i hi')]
  congr 1
  refine List.map_congr_left fun g hg => ?_
  rw [List.mem_range'_1] at hg
  have hg' : g < ng := by omega
  rw [emission_same e det nr nc _ _ pdq _ _ (hm i hi' g hg')
    (ratio_same e det ni ng nr nc a b d d' rn h hd i g hi' (by omega) hg')]

theorem flagShowers_same (e : Env α) (hjs : e.jump &&& e.sat = 0) (ni ng nr nc num : Nat) (x : α)
    (l : List (Nat × Nat × List (Ellipse α))) : ∀ a b : Cube4, Same ni ng nr nc a b →
    Same ni ng nr nc (flagShowers e ng nr nc num x l a) (flagShowers e ng nr nc num x l b) := by
  induction l with
  | nil => intro a b h; exact h
  | cons s l ih =>
    intro a b h
    refine ih _ _ ?_
    intro i hi g hg
    simp only
    split
    · exact extendEllipses_same e hjs ng nr nc _ num true x _ _ _ (h i hi) g hg
    · exact h i hi g hg

/-- Difference of two samples. -/
def diffOf (x y : Option α) : Option α :=
  match x, y with
  | some a, some b => some (b - a)
  | _, _ => none

/-- Mean of the usable differences. -/
def meanDiff (ng : Nat) (f : Nat → Option α) : Option α :=
  let l := finite ((List.range (ng - 1)).map fun g => diffOf (f g) (f (g + 1)))
  if l.length = 0 then none else some (l.sum / (l.length : α))

theorem approxRate_same (e : Env α) (ng : Nat) (d d' : Nat → Option α) (w w' : Nat → Nat) (hw : ∀ g < ng, w g = w' g)
    (hd : ∀ g < ng, d g = d' g ∨ w g &&& (e.dnu ||| e.sat ||| e.jump) ≠ 0) :
    approxRate e ng d w = approxRate e ng d' w' := by
  have key : ∀ g < ng, (if w g &&& (e.dnu ||| e.sat ||| e.jump) ≠ 0 then none else d g)
      = if w' g &&& (e.dnu ||| e.sat ||| e.jump) ≠ 0 then none else d' g := by
    intro g hg
    rw [← hw g hg]
    rcases hd g hg with h | h
    · rw [h]
    · rw [if_pos h, if_pos h]
  have hl : ∀ f f' : Nat → Option α, (∀ g < ng, f g = f' g) → meanDiff ng f = meanDiff ng f' := by
    intro f f' hf
    have : ((List.range (ng - 1)).map fun g => diffOf (f g) (f (g + 1)))
        = (List.range (ng - 1)).map fun g => diffOf (f' g) (f' (g + 1)) := by
      refine List.map_congr_left fun g hg => ?_
      have := List.mem_range.mp hg
      rw [hf g (by omega), hf (g + 1) (by omega)]
    simp only [meanDiff, this]
  exact hl _ _ key

theorem showerWord (e : Env α) (hjs : e.jump &&& e.sat = 0) (ng nr nc num : Nat) (x : α)
    (l : List (Nat × Nat × List (Ellipse α))) (a : Cube4) (i g r c : Nat) :
    flagShowers e ng nr nc num x l a i g r c = a i g r c ∨
      flagShowers e ng nr nc num x l a i g r c = a i g r c ||| e.jump := by
  classical
  induction l generalizing a with
  | nil => exact Or.inl rfl
  | cons s l ih =>
    set q : Cube4 := fun i => if i = s.1 then extendEllipses e ng nr nc s.2.1 num true x s.2.2 (a i) else a i with hq
    have hstep : flagShowers e ng nr nc num x (s :: l) a = flagShowers e ng nr nc num x l q := rfl
    have hw : q i g r c = a i g r c ∨ q i g r c = a i g r c ||| e.jump := by
      simp only [hq]
      split
      · rw [extendEllipses_eq e hjs]
        split
        · exact Or.inr rfl
        · exact Or.inl rfl
      · exact Or.inl rfl
    rw [hstep]
    rcases ih q with h | h <;> rcases hw with h' | h' <;> rw [h, h']
    · exact Or.inl rfl
    · exact Or.inr rfl
    · exact Or.inr rfl
    · rw [Nat.or_assoc, Nat.or_self]; exact Or.inr rfl

theorem ignored_flag (e : Env α) (hj : e.jump ≠ 0) (hs : e.sat ≠ 0) (hd : e.dnu ≠ 0) (hjd : e.jump &&& e.dnu = 0)
    (hsd : e.sat &&& e.dnu = 0) (w : Nat) (h : Ignored e w) : w &&& (e.dnu ||| e.sat ||| e.jump) ≠ 0 := by
  have hmem : ∀ f w : Nat, f ≠ 0 → (∀ k, f.testBit k = true → w.testBit k = true) →
      (∀ k, f.testBit k = true → (e.dnu ||| e.sat ||| e.jump).testBit k = true) →
      w &&& (e.dnu ||| e.sat ||| e.jump) ≠ 0 := by
    intro f w hf h1 h2 h0
    obtain ⟨k, hk⟩ := Nat.exists_testBit_of_ne_zero hf
    have : (w &&& (e.dnu ||| e.sat ||| e.jump)).testBit k = true := by rw [Nat.testBit_and, h1 k hk, h2 k hk]; rfl
    rw [h0] at this
    simp at this
  rcases h with rfl | rfl | rfl | rfl | rfl
  · rw [add_eq_or _ _ hjd]
    refine hmem e.dnu _ hd ?_ ?_ <;> intro k hk <;> simp [Nat.testBit_or, hk]
  · rw [add_eq_or _ _ hsd]
    refine hmem e.dnu _ hd ?_ ?_ <;> intro k hk <;> simp [Nat.testBit_or, hk]
  · refine hmem e.sat _ hs ?_ ?_ <;> intro k hk <;> simp [Nat.testBit_or, hk]
  · refine hmem e.jump _ hj ?_ ?_ <;> intro k hk <;> simp [Nat.testBit_or, hk]
  · refine hmem e.dnu _ hd ?_ ?_ <;> intro k hk <;> simp [Nat.testBit_or, hk]

theorem faint_same (e : Env α) (hj : e.jump ≠ 0) (hs : e.sat ≠ 0) (hdn : e.dnu ≠ 0) (hjs : e.jump &&& e.sat = 0)
    (hjd : e.jump &&& e.dnu = 0) (hsd : e.sat &&& e.dnu = 0) (det : Det α) (ni ng nr nc num : Nat) (x : α)
    (d d' : Nat → Nat → Nat → Nat → Option α) (rn : Img (Option α)) (pdq : Img Nat) (a b : Cube4)
    (h : Same ni ng nr nc a b) (hd : SameData e ni ng nr nc a d d') :
    Same ni ng nr nc (faint e det ni ng nr nc num x d rn pdq a).1 (faint e det ni ng nr nc num x d' rn pdq b).1 ∧
    (faint e det ni ng nr nc num x d rn pdq a).2 = (faint e det ni ng nr nc num x d' rn pdq b).2 := by
  have hc := countDnu_same e.dnu ni ng nr nc a b h
  have hsh := showers_same e det ni ng nr nc a b d d' rn pdq h hd
  refine ⟨?_, by simp only [faint, hc, hsh]⟩
  simp only [faint, findFaint, findFaintExtended, hc, hsh]
  split
  · exact h
  set l := showers e det ni ng nr nc d' rn pdq b
  have hm := maskRef_same e ni ng nr nc pdq a b h
  have hf := flagShowers_same e hjs ni ng nr nc num x l _ _ hm
  intro i hi g hg r hr c hc'
  have r1 : approxRate e ng (fun g => d i g r c) (fun g => a i g r c)
      = approxRate e ng (fun g => d' i g r c) (fun g => b i g r c) := by
    refine approxRate_same e ng _ _ _ _ (fun g hg => h i hi g hg r hr c hc') fun g hg => ?_
    rcases hd i hi g hg r hr c hc' with h1 | h1
    · exact Or.inl h1
    · exact Or.inr (ignored_flag e hj hs hdn hjd hsd _ h1)
  have r2 : approxRate e ng (fun g => d i g r c) (fun g => flagShowers e ng nr nc num x l (maskRef e pdq a) i g r c)
      = approxRate e ng (fun g => d' i g r c) (fun g => flagShowers e ng nr nc num x l (maskRef e pdq b) i g r c) := by
    refine approxRate_same e ng _ _ _ _ (fun g hg => hf i hi g hg r hr c hc') fun g hg => ?_
    rcases hd i hi g hg r hr c hc' with h1 | h1
    · exact Or.inl h1
    · right
      have hmw : maskRef e pdq a i g r c &&& (e.dnu ||| e.sat ||| e.jump) ≠ 0 := by
        simp only [maskRef]
        split
        · exact ignored_flag e hj hs hdn hjd hsd _ (by simp [Ignored])
        · exact ignored_flag e hj hs hdn hjd hsd _ h1
      rcases showerWord e hjs ng nr nc num x l (maskRef e pdq a) i g r c with h2 | h2 <;> rw [h2]
      · exact hmw
      · rw [Nat.and_or_distrib_right]
        intro h0
        exact hmw (Nat.or_eq_zero_iff.mp h0).1
  simp only [maxFluxShowers]
  rw [r1, r2, h i hi g hg r hr c hc', hf i hi g hg r hr c hc']

/-! ### Words after the snowball step -/

/-- A word with no flags but JUMP_DET, SATURATED and DO_NOT_USE, and not the first two together. -/
def Plain (e : Env α) (w : Nat) : Prop :=
  (∀ k, w.testBit k = true → e.jump.testBit k = true ∨ e.sat.testBit k = true ∨ e.dnu.testBit k = true) ∧
  (w &&& e.jump = 0 ∨ w &&& e.sat = 0)

theorem plain_sat (e : Env α) (hjs : e.jump &&& e.sat = 0) : Plain e e.sat :=
  ⟨fun _ hk => Or.inr (Or.inl hk), Or.inl (by rw [Nat.and_comm, hjs])⟩

theorem plain_or (e : Env α) (a : Nat) (ha : e.sat = 2 ^ a) (hjs : e.jump &&& e.sat = 0) (w : Nat) (h : Plain e w)
    (hw : w &&& e.sat ≠ e.sat) : Plain e (w ||| e.jump) := by
  constructor
  · intro k hk
    rw [Nat.testBit_or, Bool.or_eq_true] at hk
    rcases hk with hk | hk
    · exact h.1 k hk
    · exact Or.inl hk
  · right
    rw [or_jump_and_sat e hjs]
    rw [ha, Nat.and_two_pow] at hw ⊢
    cases hb : w.testBit a
    · simp
    · rw [hb] at hw; simp at hw

theorem body_word (e : Env α) (hjs : e.jump &&& e.sat = 0) (P : Nat → Prop) (h1 : P e.sat)
    (h2 : ∀ w, P w → w &&& e.sat ≠ e.sat → P (w ||| e.jump)) (ng nr nc intg group : Nat) (s : St) (o : Option (Img Nat))
    (n : Img Nat) (i g r c : Nat) (h : P (s.gdq i g r c)) : P ((body e ng nr nc intg group s o n).gdq i g r c) := by
  classical
  have ell : ∀ (q : Cube) (els : List (Ellipse α)), P (q g r c) →
      P (extendEllipses e ng nr nc group 0 true e.expandFactor els q g r c) := by
    intro q els hq
    rw [extendEllipses_eq e hjs]
    split
    · rename_i hh
      exact h2 _ hq (hh.2.2 g hh.1.1 le_rfl)
    · exact hq
  simp only [body]
  split
  · rename_i hi'
    subst hi'
    apply ell
    split
    · simp only
      rw [(extendSaturation_eq e nr nc group _ _ _).1]
      split
      · exact h1
      · exact h
    · exact h
  · exact h

theorem loop_word (e : Env α) (hjs : e.jump &&& e.sat = 0) (P : Nat → Prop) (h1 : P e.sat)
    (h2 : ∀ w, P w → w &&& e.sat ≠ e.sat → P (w ||| e.jump)) (ng nr nc i g r c : Nat)
    (qs : List (Nat × Nat)) : ∀ s s' : St, P (s.gdq i g r c) → flagLoop e ng nr nc qs s = some s' →
    P (s'.gdq i g r c) := by
  induction qs with
  | nil => intro s s' h hs; simp only [flagLoop, Option.some.injEq] at hs; subst hs; exact h
  | cons q qs ih =>
    intro s s' h hs
    simp only [flagLoop] at hs
    split at hs
    · exact absurd hs (by simp)
    · rename_i s1 hs1
      refine ih s1 s' ?_ hs
      rw [flagGroup_eq, Option.map_eq_some_iff] at hs1
      obtain ⟨n, _, rfl⟩ := hs1
      exact body_word e hjs P h1 h2 ng nr nc q.1 q.2 s _ n i g r c h

/-- Without persistence flags, a property of words that SATURATED has and that setting JUMP_DET on unsaturated words keeps is
kept by the snowball step. -/
theorem large_word (e : Env α) (hjs : e.jump &&& e.sat = 0) (hp : e.maskPersist = false) (P : Nat → Prop) (h1 : P e.sat)
    (h2 : ∀ w, P w → w &&& e.sat ≠ e.sat → P (w ||| e.jump)) (ni ng nr nc : Nat) (a : Cube4) (o : Cube4 × Nat)
    (ho : large e ni ng nr nc a = some o) (i g r c : Nat) (h : P (a i g r c)) : P (o.1 i g r c) := by
  simp only [large, flagLargeEvents, Option.map_eq_some_iff] at ho
  obtain ⟨g', ⟨s, hs, rfl⟩, rfl⟩ := ho
  have := loop_word e hjs P h1 h2 ng nr nc i g r c _ _ s h hs
  simp only [persistFlags, hp]
  exact this

/-- A plain word with SATURATED or DO_NOT_USE is ignored by the shower search. -/
theorem plain_ignored (e : Env α) (a b c : Nat) (ha : e.jump = 2 ^ a) (hb : e.dnu = 2 ^ b) (hc : e.sat = 2 ^ c)
    (hab : a ≠ b) (hac : a ≠ c) (hbc : b ≠ c) (w : Nat) (h : Plain e w)
    (hw : w &&& (e.sat ||| e.dnu) ≠ 0) : Ignored e w := by
  obtain ⟨h1, h2⟩ := h
  have hzero : ∀ x : Nat, w &&& 2 ^ x = 0 ↔ w.testBit x = false := by
    intro x
    rw [Nat.and_two_pow]
    cases w.testBit x <;> simp
  have hbit : w.testBit c = true ∨ w.testBit b = true := by
    by_contra hn
    push Not at hn
    apply hw
    rw [Nat.and_or_distrib_left, hb, hc, (hzero c).2 (by simpa using hn.1), (hzero b).2 (by simpa using hn.2)]
    rfl
  rw [ha, hc, hzero, hzero] at h2
  have hk : ∀ k, k ≠ a → k ≠ b → k ≠ c → w.testBit k = false := by
    intro k k1 k2 k3
    by_contra hn
    have := h1 k (by simpa using hn)
    rw [ha, hb, hc] at this
    simp only [Nat.testBit_two_pow, decide_eq_true_eq] at this
    omega
  have hjd : e.jump &&& e.dnu = 0 := by
    rw [ha, hb, Nat.and_two_pow, Nat.testBit_two_pow]; simp [hab]
  have hsd : e.sat &&& e.dnu = 0 := by
    rw [hc, hb, Nat.and_two_pow, Nat.testBit_two_pow]; simp [Ne.symm hbc]
  have ext : ∀ v : Nat, v.testBit a = w.testBit a → v.testBit b = w.testBit b → v.testBit c = w.testBit c →
      (∀ k, k ≠ a → k ≠ b → k ≠ c → v.testBit k = false) → w = v := by
    intro v v1 v2 v3 v4
    apply Nat.eq_of_testBit_eq
    intro k
    by_cases k1 : k = a
    · rw [k1, v1]
    by_cases k2 : k = b
    · rw [k2, v2]
    by_cases k3 : k = c
    · rw [k3, v3]
    rw [hk k k1 k2 k3, v4 k k1 k2 k3]
  simp only [Ignored]
  rw [add_eq_or _ _ hjd, add_eq_or _ _ hsd]
  rw [ha, hb, hc]
  have tb : ∀ x y : Nat, (2 ^ x).testBit y = decide (x = y) := fun x y => Nat.testBit_two_pow
  cases wa : w.testBit a <;> cases wb : w.testBit b <;> cases wc : w.testBit c
  · simp [wb, wc] at hbit
  · right; right; left
    apply ext <;> (try intro k k1 k2 k3) <;> simp [tb, wa, wb, wc] <;> omega
  · right; right; right; right
    apply ext <;> (try intro k k1 k2 k3) <;> simp [tb, wa, wb, wc] <;> omega
  · right; left
    apply ext <;> (try intro k k1 k2 k3) <;> simp [tb, wa, wb, wc] <;> omega
  · simp [wb, wc] at hbit
  · rw [wa, wc] at h2; simp at h2
  · left
    apply ext <;> (try intro k k1 k2 k3) <;> simp [tb, wa, wb, wc] <;> omega
  · rw [wa, wc] at h2; simp at h2

end Verif.JumpStep
