import Verif.Model.MedianComputer
import Verif.Thm.Median
import Mathlib.Data.List.Perm.Basic
import Mathlib.Data.List.Nodup
import Mathlib.Data.List.NodupEquivFin
import Mathlib.Data.List.Range
import Mathlib.Tactic.Linarith

/-!
# C145: the median computer, in memory and on disk
-/

namespace Verif.Thm

open Verif.Outlier

variable {β γ : Type}

/-! ### Specification -/

/-- The slot an index stands for, negative indices counting from the end. -/
def mcSlot (n : Nat) (i : Int) : Int := if i < 0 then i + n else i

/-- The calls of `append` are admissible: images of the announced shape, indices of the announced stack. -/
def McCalls (n rows cols : Nat) (l : List (Img β × Int)) : Prop :=
  ∀ q ∈ l, MdShape rows cols q.1 ∧ -(n : Int) ≤ q.2 ∧ q.2 < n

/-- The image appended last at slot `k`. -/
def mcLast (n : Nat) (l : List (Img β × Int)) (k : Nat) : Option (Img β) :=
  (l.reverse.find? fun q => decide (mcSlot n q.2 = k)).map Prod.fst

/-- A statistic that does not depend on the order. -/
def McSymmetric (med : List β → γ) : Prop := ∀ a b : List β, a.Perm b → med a = med b

/-! ### Helper lemmas -/

theorem mc_npIndex (n : Nat) (i : Int) (k : Nat) :
    npIndex n i = some k ↔ -(n : Int) ≤ i ∧ i < n ∧ mcSlot n i = k := by
  simp only [npIndex, mcSlot]
  split
  · rename_i h
    simp only [Option.some.injEq]
    rw [if_neg (by omega)]
    omega
  · split
    · simp only [Option.some.injEq]
      rw [if_pos (by omega)]
      omega
    · simp
      omega

theorem mc_imgShape (rows cols : Nat) (img : Img β) (h : MdShape rows cols img) (hr : 1 ≤ rows) :
    imgShape img = (rows, cols) := by
  cases img with
  | nil => have := h.1; simp at this; omega
  | cons a t => simp [imgShape, ← h.1, h.2 a (by simp)]

theorem mc_bcast (len r : Nat) (h : r < len) : bcast len r = r := by
  unfold bcast
  split <;> omega

theorem mc_store (m : Mem β) (img : Img β) (i : Int) (hr : 1 ≤ m.rows) (h : MdShape m.rows m.cols img)
    (hi : -(m.n : Int) ≤ i ∧ i < m.n) :
    ∃ m', m.store img i = some m' ∧ m'.n = m.n ∧ m'.rows = m.rows ∧ m'.cols = m.cols ∧
      ∀ k r c, r < m.rows → c < m.cols →
        some (m'.cell k r c) = if mcSlot m.n i = k then mdPix img r c else some (m.cell k r c) := by
  obtain ⟨k, hk⟩ : ∃ k : Nat, mcSlot m.n i = k := by
    refine ⟨(mcSlot m.n i).toNat, ?_⟩
    simp only [mcSlot]
    split <;> omega
  have hidx : npIndex m.n i = some k := (mc_npIndex _ _ _).mpr ⟨hi.1, hi.2, hk⟩
  have hs := mc_imgShape _ _ img h hr
  have hsh : hasShape img m.rows m.cols = true := (md_hasShape _ _ _).mpr h
  simp only [Mem.store, hidx, hs, Option.bind_some, hsh, decide_true, Bool.true_or, Bool.and_true, if_true]
  refine ⟨_, rfl, rfl, rfl, rfl, ?_⟩
  intro k' r c hrr hc
  simp only
  by_cases hkk : k' = k
  · subst hkk
    rw [if_pos ⟨rfl, hrr, hc⟩, if_pos hk, mc_bcast _ _ hrr, mc_bcast _ _ hc]
    have : ∃ v, (img[r]?.bind fun row => row[c]?) = some v := by
      have h1 : r < img.length := by rw [h.1]; exact hrr
      have h2 : c < img[r].length := by rw [h.2 _ (List.getElem_mem h1)]; exact hc
      exact ⟨img[r][c], by rw [List.getElem?_eq_getElem h1, Option.bind_some, List.getElem?_eq_getElem h2]⟩
    obtain ⟨v, hv⟩ := this
    simp [mdPix, hv]
  · rw [if_neg (by tauto), if_neg]
    rw [hk]
    intro hc'
    exact hkk (by exact_mod_cast hc'.symm)

/-- The calls as the computer receives them. -/
def mcArgs (l : List (Img β × Int)) : List (Img β × Option Int) := l.map fun q => (q.1, some q.2)

theorem mc_appendAll (m : Mem β) (l : List (Img β × Int)) (hr : 1 ≤ m.rows)
    (hl : McCalls m.n m.rows m.cols l) :
    ∃ m', (Computer.memory m).appendAll (mcArgs l) = some (.memory m') ∧ m'.n = m.n ∧ m'.rows = m.rows ∧
      m'.cols = m.cols ∧ ∀ k r c, r < m.rows → c < m.cols →
        some (m'.cell k r c) = match mcLast m.n l k with
          | some img => mdPix img r c
          | none => some (m.cell k r c) := by
  induction l generalizing m with
  | nil => exact ⟨m, rfl, rfl, rfl, rfl, fun k r c _ _ => by simp [mcLast]⟩
  | cons q t ih =>
    obtain ⟨m1, h1, hn1, hr1, hc1, hcell⟩ := mc_store m q.1 q.2 hr (hl q (by simp)).1 (hl q (by simp)).2
    obtain ⟨m2, h2, hn2, hr2, hc2, hcell2⟩ := ih m1 (by omega) (by
      rw [hn1, hr1, hc1]
      exact fun p hp => hl p (by simp [hp]))
    refine ⟨m2, ?_, by omega, by omega, by omega, ?_⟩
    · simp only [mcArgs, List.map_cons, Computer.appendAll, Computer.append, Option.bind_some, h1, Option.map_some]
      exact h2
    · intro k r c hrr hc
      rw [hcell2 k r c (by omega) (by omega), hn1]
      simp only [mcLast, List.reverse_cons, List.find?_append]
      cases hf : t.reverse.find? fun q => decide (mcSlot m.n q.2 = k) with
      | some p => simp
      | none =>
        rw [show (Option.map Prod.fst (none : Option (Img β × Int))) = none from rfl]
        simp only [hcell k r c hrr hc]
        by_cases hk : mcSlot m.n q.2 = k <;> simp [hk]

theorem mc_last_of_nodup (n : Nat) (l : List (Img β × Int)) (hnd : (l.map fun q => mcSlot n q.2).Nodup)
    (q : Img β × Int) (hq : q ∈ l) (k : Nat) (hk : mcSlot n q.2 = k) : mcLast n l k = some q.1 := by
  simp only [mcLast]
  cases hf : l.reverse.find? fun q => decide (mcSlot n q.2 = k) with
  | none =>
    have := List.find?_eq_none.mp hf q (by simpa using hq)
    simp [hk] at this
  | some p =>
    have hp : p ∈ l := by simpa using List.mem_of_find?_eq_some hf
    have hpk : mcSlot n p.2 = k := by simpa using List.find?_some hf
    have : p = q := List.inj_on_of_nodup_map hnd hp hq (by rw [hpk, hk])
    simp [this]

/-! ### C145 -/

/-- **C145**, in memory.  After any number of appends of images of the announced shape at indices of the announced stack,
in any order and also repeated, every pixel of the result is the statistic of the `n` slots: the value of the image
appended last at the slot, or what the fresh memory held if there was none. -/
theorem C145_memory (med : List β → γ) (nan : γ) (scratch : (Nat → Nat → Nat → β) → (Nat → Nat → Nat → β))
    (n rows cols item buffer : Nat) (junk : Nat → Nat → Nat → β) (hr : 1 ≤ rows) (l : List (Img β × Int))
    (hl : McCalls n rows cols l) :
    ∃ p out p', (Computer.init true n rows cols item buffer junk).appendAll (mcArgs l) = some p ∧
      p.evaluate med nan scratch = some (out, p') ∧
      ∀ r c, r < rows → c < cols → ∃ v : Nat → β, out r c = med ((List.range n).map v) ∧
        ∀ k < n, some (v k) = match mcLast n l k with
          | some img => mdPix img r c
          | none => some (junk k r c) := by
  obtain ⟨m', h, hn, -, -, hcell⟩ := mc_appendAll { n, rows, cols, cell := junk } l hr hl
  refine ⟨.memory m', _, _, h, rfl, ?_⟩
  intro r c hrr hc
  refine ⟨fun k => m'.cell k r c, ?_, fun k _ => hcell k r c hrr hc⟩
  simp only at hn
  simp only [hn]

/-- **C145.** If every slot of the announced stack is filled exactly once, in whatever order and with positive or negative
indices, the result in memory does not depend on what the fresh memory held: at every pixel it is the statistic of the
appended images. -/
theorem C145_any_order (med : List β → γ) (hmed : McSymmetric med) (nan : γ)
    (scratch : (Nat → Nat → Nat → β) → (Nat → Nat → Nat → β)) (n rows cols item buffer : Nat)
    (junk : Nat → Nat → Nat → β) (hr : 1 ≤ rows) (l : List (Img β × Int)) (hl : McCalls n rows cols l)
    (hnd : (l.map fun q => mcSlot n q.2).Nodup) (hlen : l.length = n) :
    ∃ p out p', (Computer.init true n rows cols item buffer junk).appendAll (mcArgs l) = some p ∧
      p.evaluate med nan scratch = some (out, p') ∧
      ∀ r c, r < rows → c < cols → out r c = med (l.filterMap fun q => mdPix q.1 r c) := by
  obtain ⟨p, out, p', h1, h2, h3⟩ := C145_memory med nan scratch n rows cols item buffer junk hr l hl
  refine ⟨p, out, p', h1, h2, ?_⟩
  intro r c hrr hc
  obtain ⟨v, hv, hvk⟩ := h3 r c hrr hc
  rw [hv]
  apply hmed
  have hslots : ((l.map fun q => (mcSlot n q.2).toNat)).Perm (List.range n) := by
    have hnd' : (l.map fun q => (mcSlot n q.2).toNat).Nodup := by
      have hmap : (l.map fun q => (mcSlot n q.2).toNat) = (l.map fun q => mcSlot n q.2).map Int.toNat := by simp
      rw [hmap]
      refine hnd.map_on ?_
      intro a ha b hb hab
      obtain ⟨q, hq, rfl⟩ := List.mem_map.mp ha
      obtain ⟨q', hq', rfl⟩ := List.mem_map.mp hb
      have h1 := (hl q hq).2
      have h2 := (hl q' hq').2
      simp only [mcSlot] at hab ⊢
      split at hab <;> split at hab <;> simp_all <;> omega
    refine (List.subperm_of_subset hnd' ?_).perm_of_length_le (by simp [hlen])
    intro a ha
    obtain ⟨q, hq, rfl⟩ := List.mem_map.mp ha
    have h1 := (hl q hq).2
    simp only [List.mem_range, mcSlot]
    split <;> omega
  refine ((hslots.map v).symm).trans ?_
  rw [List.map_map]
  apply List.Perm.of_eq
  have hall : ∀ q ∈ l, mdPix q.1 r c = some ((v ∘ fun q : Img β × Int => (mcSlot n q.2).toNat) q) := by
    intro q hq
    have h1 := (hl q hq).2
    have hk : mcSlot n q.2 = ((mcSlot n q.2).toNat : Int) := by
      simp only [mcSlot]
      split <;> omega
    have hlt : (mcSlot n q.2).toNat < n := by
      simp only [mcSlot]
      split <;> omega
    have := hvk _ hlt
    rw [mc_last_of_nodup n l hnd q hq _ hk] at this
    exact this.symm
  clear hslots hvk hnd hlen hl h1 h2 h3
  induction l with
  | nil => rfl
  | cons q t ih =>
    rw [List.map_cons, List.filterMap_cons, hall q (by simp), ih fun q' hq' => hall q' (by simp [hq'])]

theorem mc_disk_append (d : Disk β) (l : List (Img β × Option Int)) :
    (Computer.disk d).appendAll l = (d.addAll (l.map Prod.fst)).map .disk := by
  induction l generalizing d with
  | nil => rfl
  | cons q t ih =>
    simp only [Computer.appendAll, Computer.append, List.map_cons, Disk.addAll, List.foldl_cons, Option.bind_some]
    cases h : d.add q.1 with
    | some d' => simp only [Option.map_some, Option.bind_some]; exact ih d'
    | none =>
      simp only [Option.map_none, Option.bind_none]
      have : ∀ t : List (Img β), List.foldl (fun (acc : Option (Disk β)) img => acc.bind fun d => d.add img) none t = none := by
        intro t
        induction t with
        | nil => rfl
        | cons a t ih => simpa using ih
      rw [this]
      rfl

/-- **C145**, both modes.  If every announced slot is filled exactly once and the on-disk computer accepts the same calls,
both give the same value at every pixel, whatever the buffer size, the order of the indices and the fresh memory. -/
theorem C145_modes_agree (med : List β → γ) (hmed : McSymmetric med) (nan : γ)
    (scratch : (Nat → Nat → Nat → β) → (Nat → Nat → Nat → β)) (n rows cols item buffer : Nat)
    (junk : Nat → Nat → Nat → β) (hr : 1 ≤ rows) (l : List (Img β × Int)) (hl : McCalls n rows cols l)
    (hnd : (l.map fun q => mcSlot n q.2).Nodup) (hlen : l.length = n) (pd : Computer β)
    (hpd : (Computer.init false n rows cols item buffer junk).appendAll (mcArgs l) = some pd) :
    ∃ pm om pm' od pd', (Computer.init true n rows cols item buffer junk).appendAll (mcArgs l) = some pm ∧
      pm.evaluate med nan scratch = some (om, pm') ∧ pd.evaluate med nan scratch = some (od, pd') ∧
      ∀ r c, r < rows → c < cols → om r c = od r c := by
  obtain ⟨pm, om, pm', h1, h2, h3⟩ := C145_any_order med hmed nan scratch n rows cols item buffer junk hr l hl hnd hlen
  simp only [Computer.init, Bool.false_eq_true, if_false, mc_disk_append] at hpd
  cases hd : (Disk.init β n rows cols item buffer).addAll ((mcArgs l).map Prod.fst) with
  | none => rw [hd] at hpd; simp at hpd
  | some d =>
    rw [hd] at hpd
    simp only [Option.map_some, Option.some.injEq] at hpd
    subst hpd
    refine ⟨pm, om, pm', _, _, h1, h2, rfl, ?_⟩
    intro r c hrr hc
    rw [h3 r c hrr hc]
    have := C46_disk_is_memory med nan n rows cols item buffer hr ((mcArgs l).map Prod.fst) (by
      intro img himg
      obtain ⟨a, ha, rfl⟩ := List.mem_map.mp himg
      obtain ⟨q, hq, rfl⟩ := List.mem_map.mp ha
      exact (hl q hq).1) d hd r c hrr hc
    rw [this]
    simp only [memMedian, mcArgs, List.map_map, List.filterMap_map]
    rfl

/-- **C145**, what is refused.  In memory an append without an index or with an index outside the stack raises; on disk
the index is not looked at. -/
theorem C145_index (m : Mem β) (d : Disk β) (img : Img β) (i : Int) (idx : Option Int)
    (hi : i < -(m.n : Int) ∨ (m.n : Int) ≤ i) :
    (Computer.memory m).append img none = none ∧ (Computer.memory m).append img (some i) = none ∧
      (Computer.disk d).append img idx = (Computer.disk d).append img none := by
  refine ⟨rfl, ?_, rfl⟩
  have : npIndex m.n i = none := by
    simp only [npIndex]
    rw [if_neg (by omega), if_neg (by omega)]
  simp [Computer.append, Mem.store, this]

/-- **C145**, shapes.  In memory an image with a single row is accepted and repeated in every row of the slot; on disk it
is refused unless the announced images have a single row. -/
theorem C145_broadcast (n rows cols item buffer : Nat) (hr : 2 ≤ rows) (junk : Nat → Nat → Nat → β) (row : List β)
    (hrow : row.length = cols) (i : Int) (hi : 0 ≤ i ∧ i < n) :
    (Computer.init false n rows cols item buffer junk).append [row] (some i) = none ∧
      ∃ m, (Computer.init true n rows cols item buffer junk).append [row] (some i) = some (.memory m) ∧
        ∀ r c, r < rows → c < cols → some (m.cell i.toNat r c) = row[c]? := by
  constructor
  · have hsh : hasShape [row] rows cols = false := by
      simp [hasShape]
      omega
    simp only [Computer.init, Bool.false_eq_true, if_false, Computer.append, Disk.add]
    have hrows : (Disk.init β n rows cols item buffer).rows = rows := rfl
    have hcols : (Disk.init β n rows cols item buffer).cols = cols := rfl
    rw [hrows, hcols, hsh]
    split <;> rfl
  · have hidx : npIndex n i = some i.toNat := by
      simp only [npIndex]
      rw [if_pos hi]
    have hs : imgShape [row] = (1, cols) := by simp [imgShape, hrow]
    have hsh : hasShape [row] 1 cols = true := by simp [hasShape, hrow]
    simp only [Computer.init, if_true, Computer.append, Option.bind_some, Mem.store, hidx, hs, hsh, decide_true,
      Bool.or_true, Bool.true_or, Bool.and_true, Option.map_some]
    refine ⟨_, rfl, ?_⟩
    intro r c hrr hc
    simp only
    rw [if_pos ⟨by trivial, hrr, hc⟩, show bcast 1 r = 0 from rfl, mc_bcast _ _ hc]
    simp [List.getElem?_eq_getElem (show c < row.length by omega)]

/-- **C145**, afterwards.  An evaluated on-disk computer refuses every further append and evaluation. -/
theorem C145_closed (med : List β → γ) (nan : γ) (scratch : (Nat → Nat → Nat → β) → (Nat → Nat → Nat → β))
    (d : Disk β) (out : Nat → Nat → γ) (p : Computer β)
    (h : (Computer.disk d).evaluate med nan scratch = some (out, p)) (img : Img β) (idx : Option Int) :
    p.append img idx = none ∧ p.evaluate med nan scratch = none := by
  simp only [Computer.evaluate, Option.some.injEq, Prod.mk.injEq] at h
  obtain ⟨-, rfl⟩ := h
  exact ⟨rfl, rfl⟩

/-- **C145**, shapes.  In memory an image with a single column is accepted and repeated in every column of the slot, and the other slots keep
their values. -/
theorem C145_broadcast_column (n rows cols item buffer : Nat) (hr : 1 ≤ rows) (junk : Nat → Nat → Nat → β) (col : List β)
    (hcol : col.length = rows) (i : Int) (hi : 0 ≤ i ∧ i < n) :
    ∃ m, (Computer.init true n rows cols item buffer junk).append (col.map fun x => [x]) (some i) = some (.memory m) ∧
      ∀ r c, r < rows → c < cols → some (m.cell i.toNat r c) = col[r]? ∧ ∀ k, k ≠ i.toNat → m.cell k r c = junk k r c := by
  have hidx : npIndex n i = some i.toNat := by
    simp only [npIndex]
    rw [if_pos hi]
  have hs : imgShape (col.map fun x => [x]) = (rows, 1) := by
    cases col with
    | nil => simp at hcol; omega
    | cons x t => simp [imgShape, ← hcol]
  have hsh : hasShape (col.map fun x => [x]) rows 1 = true := by
    simp [hasShape, hcol]
  simp only [Computer.init, if_true, Computer.append, Option.bind_some, Mem.store, hidx, hs, hsh, decide_true, Bool.true_or, Bool.or_true,
    Bool.true_and, Option.map_some, Option.some.injEq, Computer.memory.injEq, exists_eq_left']
  intro r c hrr hc
  have hb : bcast rows r = r := by
    simp only [bcast]
    split <;> omega
  refine ⟨?_, fun k hk => by rw [if_neg fun h => hk h.1]⟩
  rw [if_pos ⟨by trivial, hrr, hc⟩, hb, show bcast 1 c = 0 from rfl]
  simp [List.getElem?_eq_getElem (show r < col.length by omega)]

/-- **C145**, afterwards.  A second evaluation in memory is the statistic of what the first one has left in the array, not of the images. -/
theorem C145_evaluated_again (med : List β → γ) (nan : γ) (scratch : (Nat → Nat → Nat → β) → (Nat → Nat → Nat → β))
    (m : Mem β) (out : Nat → Nat → γ) (p : Computer β) (h : (Computer.memory m).evaluate med nan scratch = some (out, p)) :
    (∀ r c, out r c = med ((List.range m.n).map fun k => m.cell k r c)) ∧
    ∃ out' p', p.evaluate med nan scratch = some (out', p') ∧
      ∀ r c, out' r c = med ((List.range m.n).map fun k => scratch m.cell k r c) := by
  simp only [Computer.evaluate, Option.some.injEq, Prod.mk.injEq] at h
  obtain ⟨rfl, rfl⟩ := h
  exact ⟨fun _ _ => rfl, _, _, rfl, fun _ _ => rfl⟩

/-- **C145**, why every slot has to be filled.  Two images announced and one appended: in memory the result at a pixel with
value `x` is the mean of `x` and whatever number `j` the fresh memory held; on disk it is `x`. -/
theorem C145_missing {α : Type} [Field α] [LinearOrder α] [IsStrictOrderedRing α]
    (scratch : (Nat → Nat → Nat → Option α) → (Nat → Nat → Nat → Option α)) (rows cols item buffer : Nat)
    (hr : 1 ≤ rows) (junk : Nat → Nat → Nat → Option α) (img : Img (Option α)) (himg : MdShape rows cols img)
    (r c : Nat) (hrr : r < rows) (hc : c < cols) (x j : α) (hx : mdPix img r c = some (some x))
    (hj : junk 1 r c = some j) :
    ∃ pm om pm' pd od pd',
      (Computer.init true 2 rows cols item buffer junk).appendAll [(img, some 0)] = some pm ∧
      pm.evaluate Verif.Jump.nanmedian none scratch = some (om, pm') ∧
      (Computer.init false 2 rows cols item buffer junk).appendAll [(img, some 0)] = some pd ∧
      pd.evaluate Verif.Jump.nanmedian none scratch = some (od, pd') ∧
      om r c = some ((x + j) / 2) ∧ od r c = some x := by
  obtain ⟨pm, om, pm', h1, h2, h3⟩ := C145_memory Verif.Jump.nanmedian none scratch 2 rows cols item buffer junk hr
    [(img, 0)] (by
      intro q hq
      simp only [List.mem_singleton] at hq
      subst hq
      exact ⟨himg, by simp⟩)
  have hsec : 1 ≤ nSections 2 rows cols item buffer := (md_sections rows _ (md_sectionRows_pos 2 rows cols item buffer) hr).1
  have hadd := md_addAll 2 rows cols item buffer [img] hr (by simpa using himg)
  rw [if_pos (by simpa using hsec)] at hadd
  have hmem := C46_disk_is_memory Verif.Jump.nanmedian none 2 rows cols item buffer hr [img] (by simpa using himg) _ hadd
    r c hrr hc
  have hdisk : (Computer.init false 2 rows cols item buffer junk).appendAll [(img, some 0)] =
      some (.disk (mdState 2 rows cols item buffer [img])) := by
    simp only [Computer.init, Bool.false_eq_true, if_false, mc_disk_append, List.map_cons, List.map_nil, hadd,
      Option.map_some]
  refine ⟨pm, om, pm', _, _, _, h1, h2, hdisk, rfl, ?_, ?_⟩
  · obtain ⟨v, hv, hvk⟩ := h3 r c hrr hc
    have h0 := hvk 0 (by omega)
    have h1' := hvk 1 (by omega)
    simp [mcLast, mcSlot, hx] at h0
    simp [mcLast, mcSlot, hj] at h1'
    rw [hv]
    simp only [List.range_succ, List.range_zero, List.nil_append, List.map_cons, List.map_nil,
      List.singleton_append, h0, h1']
    simp only [Verif.Jump.nanmedian, Verif.Jump.finite]
    by_cases hle : x ≤ j
    · simp [List.insertionSort, hle, Verif.Jump.medianSorted]
    · simp [List.insertionSort, List.orderedInsert, hle, Verif.Jump.medianSorted, add_comm]
  · rw [hmem]
    have hx' : (img[r]?.bind fun row => row[c]?) = some (some x) := hx
    simp [memMedian, hx', Verif.Jump.nanmedian, Verif.Jump.finite, Verif.Jump.medianSorted]

/-! ### Examples -/

theorem mc_nanmedian_symmetric {α : Type} [Field α] [LinearOrder α] [IsStrictOrderedRing α] :
    McSymmetric (Verif.Jump.nanmedian (α := α)) := by
  intro a b h
  simp only [Verif.Jump.nanmedian, Verif.Jump.finite]
  congr 1
  refine List.Perm.eq_of_pairwise' (r := (· ≤ ·)) (List.pairwise_insertionSort _ _) (List.pairwise_insertionSort _ _) ?_
  exact (List.perm_insertionSort _ _).trans ((h.filterMap _).trans (List.perm_insertionSort _ _).symm)

/-- The three images of C46, appended at the slots 2, 0 and -2 (slot 1). -/
def mcCalls : List (Img (Option ℚ) × Int) := (mdImgs.zip [2, 0, -2])

example : McCalls 3 3 2 mcCalls ∧ (mcCalls.map fun q => mcSlot 3 q.2) = [2, 0, 1] ∧ mcCalls.length = 3 := by
  refine ⟨?_, by decide, by decide⟩
  intro q hq
  simp only [mcCalls, mdImgs, List.zip_cons_cons, List.zip_nil_left, List.mem_cons, List.not_mem_nil, or_false] at hq
  rcases hq with rfl | rfl | rfl <;> simp [MdShape]

/-- In memory and on disk, from memory full of 77. -/
example : ∀ b : Bool, (((Computer.init b 3 3 2 4 0 fun _ _ _ => some (77 : ℚ)).appendAll (mcArgs mcCalls)).bind
    fun p => (p.evaluate Verif.Jump.nanmedian none id).map fun o =>
      (List.range 3).map fun r => (List.range 2).map fun c => o.1 r c) =
    some [[some 2, none], [some 4, some 5], [some 1, some 1]] := by decide +kernel

/-- The third image left out: in memory the 77 enters the median, on disk it does not. -/
example : ∀ b : Bool, (((Computer.init b 3 3 2 4 0 fun _ _ _ => some (77 : ℚ)).appendAll (mcArgs (mcCalls.take 2))).bind
    fun p => (p.evaluate Verif.Jump.nanmedian none id).map fun o =>
      (List.range 3).map fun r => (List.range 2).map fun c => o.1 r c) =
    some (if b then [[some 2, some 77], [some 4, some (81 / 2)], [some 1, some 7]]
      else [[some (3 / 2), none], [some (7 / 2), some 4], [some (1 / 2), some (7 / 2)]]) := by decide +kernel

end Verif.Thm
