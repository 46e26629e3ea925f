import Verif.Proof.OlsHeapRun

/-!
Property theorems for the memory handling of the C extension: no invalid access, no leak, and the linked lists hold what the
lists of `Verif.Model.Ols` hold.
-/

namespace Verif.Thm

open Verif Verif.Ols Verif.OlsHeap

variable {β γ : Type}

/-- An allocator: the address it returns is not in use. -/
def HpAllocator (A : List Nat → Nat) : Prop := ∀ l, A l ∉ l

/-- Two heaps with the same nodes. -/
def HpSame {β : Type} (h h' : Heap β) : Prop := ∀ a, load h' a = load h a

/-- The segments of an integration: none if its first group is saturated. -/
def hpSegs (fl : Flags) (i : IntegIn β γ) : List Seg := if i.firstSat then [] else (computeSegs fl i.g).segs

/-- The stored value of a segment: zero if the integration is not fitted. -/
def hpRes (zero : β) (i : IntegIn β γ) (s : Seg) : β := if i.unusable then zero else i.fit s s.len

/-- The nodes of an integration. -/
def hpNodes (zero : β) (fl : Flags) (i : IntegIn β γ) : List (Node β) := (hpSegs fl i).map fun s => ⟨s, s.len, hpRes zero i s⟩

theorem hp_segs (fl : Flags) (i : IntegIn β γ) : (segsOf fl i).segs = hpSegs fl i := by
  simp only [segsOf, hpSegs]
  split_ifs <;> rfl

theorem hp_cell (zero : β) (fl : Flags) (i : IntegIn β γ) : cellOf zero fl i = hpNodes zero fl i := by
  rw [cellOf, hp_segs]
  rfl

theorem hp_size (fl : Flags) (i : IntegIn β γ) (zero : β) {A : List Nat → Nat} (hA : HpAllocator A) : (hpSegs fl i).length ≤ (segsOf fl i).size := by
  rw [← hp_segs]
  exact (integSegs_spec hA zero fl i (holds_nil.mpr fun a => rfl : Holds ([] : Heap (Node β)) [] [])).choose_spec.choose_spec.choose_spec.2.2.2.2

/-- The number of cells of the optional results. -/
theorem hp_cells {δ : Type} {nints : Nat} (pxs : List (List (List δ))) (hp : ∀ px ∈ pxs, px.length = nints) (k n : Nat) (px : List (List δ))
    (hk : pxs[k]? = some px) (hn : n < nints) :
    (putAll pxs.length 0 pxs (List.replicate (nints * pxs.length) []))[pxs.length * n + k]? = px[n]? := by
  have := putAll_eq (img := pxs.length) pxs 0 (List.replicate (nints * pxs.length) []) hp (by omega) (by simp) k n px hk hn
  simpa using this

/-- Every cell belongs to a pixel and an integration. -/
theorem hp_cell_of {npix nints x : Nat} (h : x < nints * npix) : ∃ n k, n < nints ∧ k < npix ∧ x = npix * n + k := by
  have h0 : 0 < npix := by
    rcases Nat.eq_zero_or_pos npix with h1 | h1
    · subst h1
      simp at h
    · exact h1
  refine ⟨x / npix, x % npix, ?_, Nat.mod_lt _ h0, (Nat.div_add_mod x npix).symm⟩
  rw [Nat.div_lt_iff_lt_mul h0]
  exact h

/-- C118.  Whatever the allocator, the groups and the options, the C extension makes no invalid access and frees everything that it
allocated for segments and cosmic rays, and nothing else; every pixel gets the results of its own segments, and the cells of the
optional product hold the segments and cosmic rays of their pixel and integration. -/
theorem C118_memory {A B : List Nat → Nat} (hA : HpAllocator A) (hB : HpAllocator B) (zero : β) (fl : Flags) (saveOpt : Bool) (nints : Nat)
    (pxs : List (List (IntegIn β γ))) (hpx : ∀ px ∈ pxs, px.length = nints) (hs : Heap (Node β)) (hc : Heap γ) :
    ∃ hs' hc' opt, program A B zero fl saveOpt nints pxs hs hc = some (hs', hc', pxs.map (fun px => ⟨px.map fun i =>
        if i.unusable then [] else (hpSegs fl i).map fun s => i.fit s s.len,
        px.map fun i => i.loss.map fun g => (computeSegs fl g).segs.map fun s => ⟨s, s.len, zero⟩⟩), opt) ∧
      HpSame hs hs' ∧ HpSame hc hc' ∧ (saveOpt = false → opt = none) ∧
      (saveOpt = true → ∃ planes crplanes segs crs, opt = some (planes, crplanes, segs, crs) ∧
        segs.length = nints * pxs.length ∧ crs.length = nints * pxs.length ∧
        (planes = -1 ∨ ∃ px ∈ pxs, ∃ i ∈ px, planes = if i.firstSat then 0 else ((computeSegs fl i.g).size : Int)) ∧
        (crplanes = 0 ∨ ∃ px ∈ pxs, ∃ i ∈ px, crplanes = i.mags.length) ∧
        ∀ k px n i, pxs[k]? = some px → px[n]? = some i →
          segs[pxs.length * n + k]? = some (hpNodes zero fl i) ∧ crs[pxs.length * n + k]? = some i.mags ∧
          ((hpSegs fl i).length : Int) ≤ planes ∧ i.mags.length ≤ crplanes) := by
  set cube := if saveOpt = true then nints * pxs.length else 0 with hcube
  have H0 : ∀ {δ : Type} (h : Heap δ) (a b : Nat), Holds h h (List.replicate a ((none, []) : Chunk δ) ++ List.replicate b (none, [])) := by
    intro δ h a b
    rw [List.replicate_append_replicate]
    induction a + b with
    | zero => exact holds_nil.mpr fun _ => rfl
    | succ n ih => exact holds_null.mpr ih
  have hvals : ∀ {δ : Type} (n : Nat), (List.replicate n ((none, []) : Chunk δ)).map vals = List.replicate n [] := by
    intro δ n
    rw [List.map_replicate]
    rfl
  have hfree : ∀ {δ : Type}, saveOpt = true → ∀ k', 0 ≤ k' → k' < 0 + pxs.length →
      CellsFree pxs.length k' 0 nints ((List.replicate cube ((none, []) : Chunk δ)).map vals) := by
    intro δ h k' _ hk j hj
    rw [hvals, List.getElem?_replicate, if_pos]
    rw [hcube, if_pos h, Nat.zero_add]
    exact cell_lt (by omega) hj
  obtain ⟨m, ls, P, R, C, S, e, M, hP, hC, ht, hf⟩ := pixelsC_spec hA hB zero fl saveOpt (h0s := hs) (h0c := hc) (img := pxs.length) pxs 0
    ⟨hs, hc, List.replicate cube none, List.replicate cube none, -1, 0⟩ ⟨List.replicate nints SegC.zero, List.replicate nints CrC.zero⟩
    (List.replicate nints (none, [])) (List.replicate cube (none, [])) (List.replicate nints (none, [])) (List.replicate cube (none, []))
    ⟨H0 .., H0 .., by simp, by simp⟩ hpx (by omega) (by simp [SegC.zero]) (by simp [CrC.zero]) (by simp) (by simp) hfree hfree
  -- the optional product
  have hopt : ∃ opt, buildOptC saveOpt m = some opt ∧ (saveOpt = false → opt = none) ∧
      (saveOpt = true → ∃ planes crplanes segs crs, opt = some (planes, crplanes, segs, crs) ∧
        segs.length = nints * pxs.length ∧ crs.length = nints * pxs.length ∧
        (planes = -1 ∨ ∃ px ∈ pxs, ∃ i ∈ px, planes = if i.firstSat then 0 else ((computeSegs fl i.g).size : Int)) ∧
        (crplanes = 0 ∨ ∃ px ∈ pxs, ∃ i ∈ px, crplanes = i.mags.length) ∧
        ∀ k px n i, pxs[k]? = some px → px[n]? = some i →
          segs[pxs.length * n + k]? = some (hpNodes zero fl i) ∧ crs[pxs.length * n + k]? = some i.mags ∧
          ((hpSegs fl i).length : Int) ≤ planes ∧ i.mags.length ≤ crplanes) := by
    cases hso : saveOpt with
    | false => exact ⟨none, rfl, fun _ => rfl, by simp⟩
    | true =>
      obtain ⟨hR, hS, hm1, hm2⟩ := ht hso
      rw [hvals, hcube, if_pos hso] at hR hS
      have hlR : (R.map vals).length = nints * pxs.length := by rw [hR, putAll_length, List.length_replicate]
      have hlS : (S.map vals).length = nints * pxs.length := by rw [hS, putAll_length, List.length_replicate]
      have hcell : ∀ k px n i, pxs[k]? = some px → px[n]? = some i →
          (R.map vals)[pxs.length * n + k]? = some (hpNodes zero fl i) ∧ (S.map vals)[pxs.length * n + k]? = some i.mags ∧
          ((hpSegs fl i).length : Int) ≤ m.maxSegs ∧ i.mags.length ≤ m.maxCrs := by
        intro k px n i hk hn
        have hmem : px ∈ pxs := List.mem_of_getElem? hk
        have himem : i ∈ px := List.mem_of_getElem? hn
        have hn' : n < nints := by
          rw [← hpx px hmem]
          exact (List.getElem?_eq_some_iff.mp hn).1
        refine ⟨?_, ?_, ?_, ?_⟩
        · have := hp_cells (nints := nints) (pxs.map (List.map (cellOf zero fl))) (by
            intro q hq
            obtain ⟨p, hp, rfl⟩ := List.mem_map.mp hq
            simpa using hpx p hp) k n (px.map (cellOf zero fl)) (by simp [hk]) hn'
          rw [List.length_map] at this
          rw [hR, this, List.getElem?_map, hn, Option.map_some, hp_cell]
        · have := hp_cells (nints := nints) (pxs.map (List.map IntegIn.mags)) (by
            intro q hq
            obtain ⟨p, hp, rfl⟩ := List.mem_map.mp hq
            simpa using hpx p hp) k n (px.map IntegIn.mags) (by simp [hk]) hn'
          rw [List.length_map] at this
          rw [hS, this, List.getElem?_map, hn, Option.map_some]
        · have h1 := (foldl_maxInt (pxs.flatMap fun px => px.map fun i => (segsOf fl i).size) (-1)).1 (segsOf fl i).size
            (List.mem_flatMap.mpr ⟨px, hmem, List.mem_map.mpr ⟨i, himem, rfl⟩⟩)
          rw [← hm1] at h1
          have h2 := hp_size fl i zero hA
          omega
        · have h1 := (foldl_maxNat (pxs.flatMap fun px => px.map fun i => i.mags.length) 0).1 i.mags.length
            (List.mem_flatMap.mpr ⟨px, hmem, List.mem_map.mpr ⟨i, himem, rfl⟩⟩)
          rw [← hm2] at h1
          exact h1
      have hall : ∀ x, x < nints * pxs.length → ∃ k px n i, pxs[k]? = some px ∧ px[n]? = some i ∧ x = pxs.length * n + k := by
        intro x hx
        obtain ⟨n, k, hn, hk, rfl⟩ := hp_cell_of hx
        have hn' : n < pxs[k].length := by rw [hpx _ (List.getElem_mem hk)]; exact hn
        exact ⟨k, pxs[k], n, pxs[k][n], List.getElem?_eq_getElem hk, List.getElem?_eq_getElem hn', rfl⟩
      have e1 : m.rsegs.mapM (cellC m.hs m.maxSegs) = some (R.map vals) := by
        rw [M.rsegs]
        refine cellsC_spec M.segs _ (fun c hc => by simp [hc]) fun c hc => ?_
        obtain ⟨x, hx⟩ := List.mem_iff_getElem?.mp hc
        have hxl : x < nints * pxs.length := by
          rw [← hlR, List.length_map]
          exact (List.getElem?_eq_some_iff.mp hx).1
        obtain ⟨k, px, n, i, h1, h2, rfl⟩ := hall x hxl
        obtain ⟨h3, -, h4, -⟩ := hcell k px n i h1 h2
        rw [List.getElem?_map, hx, Option.map_some, Option.some.injEq] at h3
        rw [h3, hpNodes, List.length_map]
        exact h4
      have hcr : ∀ c ∈ S, (vals c).length ≤ m.maxCrs := by
        intro c hc
        obtain ⟨x, hx⟩ := List.mem_iff_getElem?.mp hc
        have hxl : x < nints * pxs.length := by
          rw [← hlS, List.length_map]
          exact (List.getElem?_eq_some_iff.mp hx).1
        obtain ⟨k, px, n, i, h1, h2, rfl⟩ := hall x hxl
        obtain ⟨-, h3, -, h4⟩ := hcell k px n i h1 h2
        rw [List.getElem?_map, hx, Option.map_some, Option.some.injEq] at h3
        rw [h3]
        exact h4
      have e2 : saveCrsC m = some (S.map vals) := by
        rw [saveCrsC, M.rcrs]
        split_ifs with h0
        · exact cellsC_spec M.crs _ (fun c hc => by simp [hc]) fun c hc => by exact_mod_cast hcr c hc
        · congr 1
          rw [List.map_map]
          refine List.map_congr_left fun c hc => ?_
          have := hcr c hc
          exact (List.length_eq_zero_iff.mp (by omega)).symm
      have hmax1 : m.maxSegs = -1 ∨ ∃ px ∈ pxs, ∃ i ∈ px, m.maxSegs = if i.firstSat then 0 else ((computeSegs fl i.g).size : Int) := by
        rw [hm1]
        refine (foldl_maxInt_mem _ _).imp id ?_
        rintro ⟨n, hn, h⟩
        obtain ⟨px, h1, h2⟩ := List.mem_flatMap.mp hn
        obtain ⟨i, h3, rfl⟩ := List.mem_map.mp h2
        refine ⟨px, h1, i, h3, h.trans ?_⟩
        rw [segsOf]
        split_ifs <;> rfl
      have hmax2 : m.maxCrs = 0 ∨ ∃ px ∈ pxs, ∃ i ∈ px, m.maxCrs = i.mags.length := by
        rw [hm2]
        refine (foldl_maxNat_mem _ _).imp id ?_
        rintro ⟨n, hn, h⟩
        obtain ⟨px, h1, h2⟩ := List.mem_flatMap.mp hn
        obtain ⟨i, h3, rfl⟩ := List.mem_map.mp h2
        exact ⟨px, h1, i, h3, h⟩
      refine ⟨some (m.maxSegs, m.maxCrs, R.map vals, S.map vals), ?_, by simp, fun _ => ⟨_, _, _, _, rfl, hlR, hlS, hmax1, hmax2, hcell⟩⟩
      simp only [buildOptC, if_true, saveOptC, e1, e2, Option.bind_eq_bind, Option.bind_some, Option.map_some]
  obtain ⟨opt, eo, ho1, ho2⟩ := hopt
  -- the end
  obtain ⟨g1, f1, G1⟩ := freeHeads_spec R P m.hs (M.segs.perm List.perm_append_comm)
  obtain ⟨g2, f2, G2⟩ := freeHeads_spec S C m.hc (M.crs.perm List.perm_append_comm)
  obtain ⟨g3, f3, G3⟩ := cleanSegs_spec ls.segs P [] g1 hP (by simpa using G1)
  obtain ⟨g4, f4, G4⟩ := freeHeads_spec C [] g2 (by simpa using G2)
  refine ⟨g3, g4, opt, ?_, ?_, ?_, ho1, ho2⟩
  · have hcube' : (if saveOpt = true then nints * pxs.length else 0) = cube := rfl
    rw [← M.rsegs] at f1
    rw [← M.rcrs] at f2
    rw [← hC] at f4
    simp only [program, hcube', e, eo, f1, f2, f3, f4, Option.bind_eq_bind, Option.bind_some]
    have : ∀ i : IntegIn β γ, fitsOf fl i = if i.unusable then [] else (hpSegs fl i).map fun s => i.fit s s.len := by
      intro i
      rw [fitsOf, hp_segs]
    congr 4
    refine List.map_congr_left fun px _ => ?_
    congr 1
    exact List.map_congr_left fun i _ => this i
  · intro a
    exact G3.frame a (by simp [allAds])
  · intro a
    exact G4.frame a (by simp [allAds])

/-- C118 (finding).  If the arrays have wrong types, the ramp data structure is freed twice, whatever the allocator. -/
theorem C118_wrong_type_frees_twice (A : List Nat → Nat) (h : Heap Unit) : getRampDataC A true false h = none := by
  simp [getRampDataC, OlsHeap.free, calloc, live]

/-- C118.  In the other cases it is freed once or returned. -/
theorem C118_other_arguments {A : List Nat → Nat} (hA : HpAllocator A) (h : Heap Unit) :
    (∃ h', getRampDataC A false false h = some (h', none) ∧ HpSame h h') ∧
    ∃ h' a, getRampDataC A true true h = some (h', some a) ∧ a ∉ live h ∧ a ∈ live h' := by
  refine ⟨?_, ?_⟩
  · obtain ⟨h', e, hl⟩ := free_some (h := (calloc A h ⟨none, ()⟩).1) (p := (calloc A h ⟨none, ()⟩).2) (by simp [calloc, load])
    refine ⟨h', by simp [getRampDataC, e], fun a => ?_⟩
    rw [hl]
    have hn : load h (A (live h)) = none := (load_none_iff h _).mpr (hA _)
    have e2 : (calloc A h ⟨none, ()⟩).2 = A (live h) := rfl
    rw [e2]
    split_ifs with ha
    · rw [ha, hn]
    · have ha' : ¬ A (live h) = a := fun he => ha he.symm
      simp [calloc, load, ha']
  · exact ⟨_, _, rfl, hA _, by simp [calloc, live]⟩

/-- An allocator that takes the smallest address above all those in use. -/
def hpTop (l : List Nat) : Nat := l.foldl max 0 + 1

theorem hp_top : HpAllocator hpTop := by
  have h : ∀ (l : List Nat) (m : Nat), m ≤ l.foldl max m ∧ ∀ x ∈ l, x ≤ l.foldl max m := by
    intro l
    induction l with
    | nil => intro m; simp
    | cons y l ih =>
      intro m
      have := ih (max m y)
      rw [List.foldl_cons]
      refine ⟨(le_max_left _ _).trans this.1, fun x hx => ?_⟩
      rcases List.mem_cons.mp hx with rfl | hx
      · exact (le_max_right _ _).trans this.1
      · exact this.2 x hx
  intro l hl
  have := (h l 0).2 _ hl
  simp only [hpTop] at this
  omega

/-- Two pixels with two integrations each: several segments and cosmic rays, one-group segments that are pruned, a saturated
integration and one with charge loss. -/
def hpPixels : List (List (IntegIn Nat Nat)) :=
  [[⟨[0, 0, 4, 0, 0, 4, 0], [7, 8], false, false, fun s n => s.start * 10 + n, none⟩,
    ⟨[2, 2, 2], [], true, true, fun s n => s.start * 10 + n, none⟩],
   [⟨[0, 1, 0, 0, 0], [], false, false, fun s n => s.start * 10 + n, some [0, 0, 1, 1, 1]⟩,
    ⟨[0, 0, 4, 0], [9], false, false, fun s n => s.start * 10 + n, none⟩]]

/-- All nodes are freed; the cells hold the values of their segments. -/
example : HpAllocator hpTop ∧ (∀ px ∈ hpPixels, px.length = 2) ∧
    (program hpTop hpTop 0 ⟨1, 2, 4, 8, 16, 32⟩ true 2 hpPixels [] []).map (fun r => (r.1.length, r.2.1.length, r.2.2.1.map (·.fits),
        r.2.2.2.map fun o => (o.1, o.2.1, o.2.2.1.map (·.map (·.res)), o.2.2.2))) =
      some (0, 0, [[[2, 23, 52], []], [[23], [2, 22]]], some (3, 2, [[2, 23, 52], [23], [], [2, 22]], [[7, 8], [], [], [9]])) :=
  ⟨hp_top, by decide, by rfl⟩

end Verif.Thm
