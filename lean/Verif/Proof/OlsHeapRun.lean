import Verif.Proof.OlsHeap

/-!
# Memory of the C ramp fit: pixels, optional product and end

The invariant of the loops over integrations and pixels: which lists are reachable from `pr->segs`, `pr->crs`, `rd->segs` and
`rd->crs`.
-/

namespace Verif.OlsHeap

open Verif Verif.Ols

variable {β γ : Type}

/-- The largest number of segments so far (slope_fitter.c:1978-1980). -/
def maxInt (m : Int) (n : Nat) : Int := if m < n then n else m

/-- The largest number of cosmic rays so far (slope_fitter.c:1988-1993). -/
def maxNat (m n : Nat) : Nat := if 0 < n ∧ m < n then n else m

/-- The state of the lists while the integrations of a pixel are worked on: `P` and `R` are the segment lists of the pixel and of
the optional results, `C` and `S` the cosmic rays. -/
structure MemOk (h0s : Heap (Node β)) (h0c : Heap γ) (m : Mem β γ) (P R : List (Chunk (Node β))) (C S : List (Chunk γ)) : Prop where
  segs : Holds h0s m.hs (P ++ R)
  crs : Holds h0c m.hc (C ++ S)
  rsegs : m.rsegs = R.map Prod.fst
  rcrs : m.rcrs = S.map Prod.fst

/-- One integration. -/
theorem integC_spec {A : List Nat → Nat} (hA : Fresh A) (zero : β) (fl : Flags) (saveOpt : Bool) {h0s : Heap (Node β)} {h0c : Heap γ}
    {m : Mem β γ} {P R : List (Chunk (Node β))} {C S : List (Chunk γ)} {d : Chunk γ} (M : MemOk h0s h0c m P R (d :: C) S)
    {c : CrC} (hc : CrFits c d) (idx : Nat) (i : IntegIn β γ)
    (hR : saveOpt = true → (R.map vals)[idx]? = some []) (hS : saveOpt = true → (S.map vals)[idx]? = some []) :
    ∃ m' l' c' p R' d' S', integC A zero fl saveOpt m idx SegC.zero c i = some (m', l', c', fitsOf fl i) ∧
      MemOk h0s h0c m' (p :: P) R' (d' :: C) S' ∧ l'.head = p.1 ∧ c'.head = d'.1 ∧
      (saveOpt = true → R'.map vals = (R.map vals).set idx (cellOf zero fl i) ∧ S'.map vals = (S.map vals).set idx (vals d) ∧
        m'.maxSegs = maxInt m.maxSegs (segsOf fl i).size ∧ m'.maxCrs = maxNat m.maxCrs (vals d).length) ∧
      (saveOpt = false → R' = R ∧ S' = S) := by
  obtain ⟨h1, l, h2, cl, e1, e2, H2, hv, hs, -⟩ := integHeap_spec hA zero fl i M.segs
  cases saveOpt with
  | false =>
    refine ⟨{ m with hs := h2 }, l, c, (l.head, cl), R, d, S, ?_, ⟨H2, M.crs, M.rsegs, M.rcrs⟩, rfl, hc.1, by simp, fun _ => ⟨rfl, rfl⟩⟩
    simp [integC, e1, e2]
  | true =>
    have hr := hR rfl
    have hs' := hS rfl
    obtain ⟨G1, G2, G3⟩ := H2.put hr
    have hi : idx < m.rsegs.length := by
      rw [M.rsegs]
      have := (List.getElem?_eq_some_iff.mp hr).1
      simpa using this
    have hj : idx < m.rcrs.length := by
      rw [M.rcrs]
      have := (List.getElem?_eq_some_iff.mp hs').1
      simpa using this
    obtain ⟨K1, K2, K3⟩ := Holds.put (P := C) M.crs hs'
    have hlen : (vals d).length = c.size := by rw [hc.2]; simp [vals]
    by_cases hz : 0 < c.size
    · refine ⟨⟨h2, m.hc, m.rsegs.set idx l.head, m.rcrs.set idx c.head, maxInt m.maxSegs l.size, maxNat m.maxCrs c.size⟩,
        { l with head := none, tail := none, size := 0 }, { c with head := none, tail := none, size := 0 }, (none, []),
        R.set idx (l.head, cl), (none, []), S.set idx d, ?_, ⟨holds_null.mpr G1, holds_null.mpr K1, ?_, ?_⟩, rfl, rfl, ?_, by simp⟩
      · simp [integC, e1, e2, handOver, hi, hj, hz, maxInt, maxNat]
      · rw [G2, M.rsegs]
      · rw [K2, M.rcrs, hc.1]
      · intro _
        refine ⟨by rw [G3, ← hv]; rfl, K3, by rw [← hs], by rw [hlen]⟩
    · have hd : d = (none, []) := by
        have h2 : d.2 = [] := by
          have := hc.2
          exact List.length_eq_zero_iff.mp (by omega)
        have hr := M.crs.repr d (by simp)
        rw [h2] at hr
        exact Prod.ext hr h2
      refine ⟨{ m with hs := h2, rsegs := m.rsegs.set idx l.head, maxSegs := maxInt m.maxSegs l.size },
        { l with head := none, tail := none, size := 0 }, { c with head := none, tail := none, size := 0 }, (none, []),
        R.set idx (l.head, cl), d, S, ?_, ⟨holds_null.mpr G1, M.crs, ?_, M.rcrs⟩, rfl, by rw [hd], ?_, by simp⟩
      · simp [integC, e1, e2, handOver, hi, hj, hz, maxInt]
      · rw [G2, M.rsegs]
      · intro _
        refine ⟨by rw [G3, ← hv]; rfl, ?_, by rw [← hs], ?_⟩
        · rw [hd]
          refine (List.ext_getElem? fun j => ?_).symm
          rw [List.getElem?_set]
          split_ifs with h1 h3
          · rw [← h1, hs']
            rfl
          · rw [List.getElem?_eq_none_iff.mpr (by omega)]
          · rfl
        · rw [hlen, maxNat, if_neg (by simp [hz])]

/-- The cells the remaining integrations will be put into are empty. -/
def CellsFree {δ : Type} (img k n len : Nat) (l : List (List δ)) : Prop := ∀ j < len, l[img * (n + j) + k]? = some []

theorem CellsFree.tail {δ : Type} {img k n len : Nat} {l : List (List δ)} (hi : 0 < img) (h : CellsFree img k n (len + 1) l) (v : List δ) :
    CellsFree img k (n + 1) len (l.set (img * n + k) v) := by
  intro j hj
  have := h (j + 1) (by omega)
  rw [List.getElem?_set, if_neg, ← this]
  · congr 3
    omega
  · intro he
    have h1 : img * n = img * (n + 1 + j) := by omega
    have h2 := Nat.eq_of_mul_eq_mul_left hi h1
    omega

/-- All integrations of a pixel. -/
theorem integsC_spec {A : List Nat → Nat} (hA : Fresh A) (zero : β) (fl : Flags) (saveOpt : Bool) {h0s : Heap (Node β)}
    {h0c : Heap γ} {img k : Nat} (himg : 0 < img) : ∀ (is : List (IntegIn β γ)) (n : Nat) (m : Mem β γ) (cs : List CrC)
    (P R : List (Chunk (Node β))) (C D S : List (Chunk γ)), MemOk h0s h0c m P R (C ++ D) S → List.Forall₂ CrFits cs C →
    C.length = is.length →
    (saveOpt = true → CellsFree img k n is.length (R.map vals)) → (saveOpt = true → CellsFree img k n is.length (S.map vals)) →
    ∃ m' ls' cs' P' R' C' S',
      integsC A zero fl saveOpt img k n m (List.replicate is.length SegC.zero) cs is = some (m', ls', cs', is.map (fitsOf fl)) ∧
      MemOk h0s h0c m' (P' ++ P) R' (C' ++ D) S' ∧ ls'.map SegC.head = P'.map Prod.fst ∧ cs'.map CrC.head = C'.map Prod.fst ∧
      ls'.length = is.length ∧ cs'.length = is.length ∧
      (saveOpt = true → R'.map vals = putCells img k n (is.map (cellOf zero fl)) (R.map vals) ∧
        S'.map vals = putCells img k n (C.map vals) (S.map vals) ∧
        m'.maxSegs = (is.map fun i => (segsOf fl i).size).foldl maxInt m.maxSegs ∧
        m'.maxCrs = (C.map fun c => (vals c).length).foldl maxNat m.maxCrs) ∧
      (saveOpt = false → R' = R ∧ S' = S) := by
  intro is
  induction is with
  | nil =>
    intro n m cs P R C D S M hF hl _ _
    have hC : C = [] := by simpa using hl
    subst hC
    cases hF
    refine ⟨m, [], [], [], R, [], S, rfl, M, rfl, rfl, rfl, rfl, fun _ => ⟨rfl, rfl, rfl, rfl⟩, fun _ => ⟨rfl, rfl⟩⟩
  | cons i is ih =>
    intro n m cs P R C D S M hF hl hR hS
    cases hF with
    | nil => simp at hl
    | @cons c d cs C hc hF =>
      obtain ⟨m1, l', c', p, R1, d', S1, e1, M1, hp, hd, ht, hf⟩ := integC_spec hA zero fl saveOpt (P := P) (C := C ++ D) M hc
        (img * n + k) i (fun h => by simpa using hR h 0 (by simp)) (fun h => by simpa using hS h 0 (by simp))
      have M1' : MemOk h0s h0c m1 (p :: P) R1 (C ++ (d' :: D)) S1 :=
        ⟨M1.segs, M1.crs.perm ((perm_front C D d').symm.append_right S1), M1.rsegs, M1.rcrs⟩
      obtain ⟨m2, ls', cs', P2, R2, C2, S2, e2, M2, hP2, hC2, hl1, hl2, ht2, hf2⟩ := ih (n + 1) m1 cs (p :: P) R1 C (d' :: D) S1 M1' hF
        (by simpa using hl)
        (fun h => by rw [(ht h).1]; exact CellsFree.tail himg (hR h) _)
        (fun h => by rw [(ht h).2.1]; exact CellsFree.tail himg (hS h) _)
      refine ⟨m2, l' :: ls', c' :: cs', p :: P2, R2, d' :: C2, S2, ?_,
        ⟨M2.segs.perm ((perm_front P2 P p).append_right R2), M2.crs.perm ((perm_front C2 D d').append_right S2), M2.rsegs, M2.rcrs⟩,
        by simp [hp, hP2], by simp [hd, hC2], by simp [hl1], by simp [hl2], ?_, ?_⟩
      · have : List.replicate (i :: is).length SegC.zero = SegC.zero :: List.replicate is.length SegC.zero := rfl
        rw [this]
        simp only [integsC, e1, Option.bind_eq_bind, Option.bind_some, e2]
        rfl
      · intro h
        obtain ⟨a1, a2, a3, a4⟩ := ht h
        obtain ⟨b1, b2, b3, b4⟩ := ht2 h
        refine ⟨by rw [b1, a1]; rfl, by rw [b2, a2]; rfl, by rw [b3, a3]; rfl, by rw [b4, a4]; rfl⟩
      · intro h
        rw [(hf2 h).1, (hf2 h).2, (hf h).1, (hf h).2]
        exact ⟨rfl, rfl⟩

/-! ## Charge loss -/

/-- The segments of the integrations after the removal of charge loss. -/
def lossOf (zero : β) (fl : Flags) (i : IntegIn β γ) : Option (List (Node β)) :=
  i.loss.map fun g => (computeSegs fl g).segs.map (nodeOf zero)

theorem lossesC_spec {A : List Nat → Nat} (hA : Fresh A) (zero : β) (fl : Flags) {h0 : Heap (Node β)} {ch : List (Chunk (Node β))} :
    ∀ (is : List (IntegIn β γ)) (h : Heap (Node β)), Holds h0 h ch →
    ∃ h', lossesC A zero fl h is = some (h', is.map (lossOf zero fl)) ∧ Holds h0 h' ch := by
  intro is
  induction is with
  | nil => exact fun h H => ⟨h, rfl, H⟩
  | cons i is ih =>
    intro h H
    cases hl : i.loss with
    | none =>
      obtain ⟨h', e, H'⟩ := ih h H
      refine ⟨h', ?_, H'⟩
      simp only [lossesC, hl, e, Option.bind_eq_bind, Option.bind_some, List.map_cons, lossOf, Option.map_none]
    | some g =>
      obtain ⟨h1, l, cl, e1, D, u, -⟩ := computeSegsC_spec hA zero fl g h
      have H1 : Holds h0 h1 ((l.head, cl) :: ch) := H.grow D.repr D.nodup u
      have e2 := H1.read (c := (l.head, cl)) (by simp)
      obtain ⟨h2, e3, H2⟩ := H1.freeAll
      obtain ⟨h', e, H'⟩ := ih h2 H2
      refine ⟨h', ?_, H'⟩
      have hv : cl.map Prod.snd = (computeSegs fl g).segs.map (nodeOf zero) := D.vals
      simp only at e2 e3
      simp only [lossesC, hl, lossC, e1, e2, e3, e, Option.bind_eq_bind, Option.bind_some, List.map_cons, lossOf, Option.map_some, hv]

/-! ## Cells -/

theorem putCells_length {δ : Type} (img k : Nat) : ∀ (vs : List δ) (n : Nat) (acc : List δ),
    (putCells img k n vs acc).length = acc.length := by
  intro vs
  induction vs with
  | nil => intros; rfl
  | cons v vs ih =>
    intro n acc
    rw [putCells, ih, List.length_set]

theorem putCells_ne {δ : Type} (img k : Nat) : ∀ (vs : List δ) (n : Nat) (acc : List δ) (x : Nat),
    (∀ j < vs.length, x ≠ img * (n + j) + k) → (putCells img k n vs acc)[x]? = acc[x]? := by
  intro vs
  induction vs with
  | nil => intros; rfl
  | cons v vs ih =>
    intro n acc x hx
    rw [putCells, ih, List.getElem?_set, if_neg]
    · exact fun he => hx 0 (by simp) (by simp [he])
    · intro j hj he
      refine hx (j + 1) (by simpa using hj) ?_
      rw [he]
      congr 2
      omega

theorem putCells_eq {δ : Type} {img : Nat} (hi : 0 < img) (k : Nat) : ∀ (vs : List δ) (n : Nat) (acc : List δ) (j : Nat),
    j < vs.length → img * (n + j) + k < acc.length → (putCells img k n vs acc)[img * (n + j) + k]? = vs[j]? := by
  intro vs
  induction vs with
  | nil => intro n acc j hj; simp at hj
  | cons v vs ih =>
    intro n acc j hj hl
    cases j with
    | zero =>
      rw [putCells, putCells_ne, Nat.add_zero, List.getElem?_set, if_pos rfl, if_pos (by simpa using hl)]
      · rfl
      · intro j _ he
        have h1 : img * (n + 0) = img * (n + 1 + j) := by omega
        have := Nat.eq_of_mul_eq_mul_left hi h1
        omega
    | succ j =>
      have := ih (n + 1) (acc.set (img * n + k) v) j (by simpa using hj) (by
        rw [List.length_set]
        have : n + 1 + j = n + (j + 1) := by omega
        rw [this]
        exact hl)
      rw [putCells, List.getElem?_cons_succ, ← this]
      congr 3
      omega

/-- Writing the values of all pixels. -/
def putAll {δ : Type} (img : Nat) : Nat → List (List δ) → List δ → List δ
  | _, [], acc => acc
  | k, px :: pxs, acc => putAll img (k + 1) pxs (putCells img k 0 px acc)

theorem putAll_length {δ : Type} (img : Nat) : ∀ (pxs : List (List δ)) (k : Nat) (acc : List δ),
    (putAll img k pxs acc).length = acc.length := by
  intro pxs
  induction pxs with
  | nil => intros; rfl
  | cons px pxs ih =>
    intro k acc
    rw [putAll, ih, putCells_length]

/-- Cells of different pixels are different. -/
theorem cell_inj {img j k j' k' : Nat} (hk : k < img) (hk' : k' < img) (h : img * j + k = img * j' + k') : j = j' ∧ k = k' := by
  have h1 : (img * j + k) / img = j := by
    rw [Nat.mul_add_div (by omega), Nat.div_eq_of_lt hk, Nat.add_zero]
  have h2 : (img * j' + k') / img = j' := by
    rw [Nat.mul_add_div (by omega), Nat.div_eq_of_lt hk', Nat.add_zero]
  have hj : j = j' := by rw [← h1, h, h2]
  subst hj
  exact ⟨rfl, by omega⟩

theorem cell_lt {img k j nints : Nat} (hk : k < img) (hj : j < nints) : img * j + k < nints * img := by
  have : img * (j + 1) ≤ img * nints := Nat.mul_le_mul_left _ hj
  rw [Nat.mul_comm nints img]
  rw [Nat.mul_add, Nat.mul_one] at this
  omega

theorem putAll_ne {δ : Type} {img nints : Nat} : ∀ (pxs : List (List δ)) (k : Nat) (acc : List δ) (x : Nat),
    (∀ px ∈ pxs, px.length = nints) →
    (∀ k' j, k ≤ k' → k' < k + pxs.length → j < nints → x ≠ img * j + k') → (putAll img k pxs acc)[x]? = acc[x]? := by
  intro pxs
  induction pxs with
  | nil => intros; rfl
  | cons px pxs ih =>
    intro k acc x hp hx
    rw [putAll, ih (k + 1) _ x (fun p h => hp p (List.mem_cons_of_mem _ h)), putCells_ne]
    · intro j hj
      rw [hp px (by simp)] at hj
      simpa using hx k j (by omega) (by simp) hj
    · intro k' j h1 h2 h3
      exact hx k' j (by omega) (by simp; omega) h3

theorem putAll_eq {δ : Type} {img nints : Nat} : ∀ (pxs : List (List δ)) (k : Nat) (acc : List δ),
    (∀ px ∈ pxs, px.length = nints) → k + pxs.length ≤ img → acc.length = nints * img →
    ∀ (k' j : Nat) (px : List δ), pxs[k']? = some px → j < nints → (putAll img k pxs acc)[img * j + (k + k')]? = px[j]? := by
  intro pxs
  induction pxs with
  | nil => intro k acc _ _ _ k' j px hk; simp at hk
  | cons p pxs ih =>
    intro k acc hp hlen hacc k' j px hk hj
    have hp' := fun q h => hp q (List.mem_cons_of_mem p h)
    simp only [List.length_cons] at hlen
    cases k' with
    | zero =>
      have : p = px := by simpa using hk
      subst this
      have hpl := hp p (by simp)
      rw [putAll, putAll_ne (nints := nints) _ _ _ _ hp']
      · have := putCells_eq (img := img) (by omega) k p 0 acc j (by omega) (by
          rw [hacc, Nat.zero_add]
          exact cell_lt (by omega) hj)
        simpa using this
      · intro k2 j2 h1 h2 h3 he
        have := (cell_inj (by omega) (by omega) he).2
        omega
    | succ k' =>
      have := ih (k + 1) (putCells img k 0 p acc) hp' (by omega) (by rw [putCells_length, hacc]) k' j px (by simpa using hk) hj
      rw [putAll, ← this]
      congr 2
      omega

/-! ## Pixels -/

theorem pixelC_spec {A B : List Nat → Nat} (hA : Fresh A) (hB : Fresh B) (zero : β) (fl : Flags) (saveOpt : Bool) {h0s : Heap (Node β)}
    {h0c : Heap γ} {img k : Nat} (himg : 0 < img) (px : List (IntegIn β γ)) (m : Mem β γ) (ls : Lists)
    (P R : List (Chunk (Node β))) (C S : List (Chunk γ)) (M : MemOk h0s h0c m P R C S)
    (hP : ls.segs.map SegC.head = P.map Prod.fst) (hC : ls.crs.map CrC.head = C.map Prod.fst)
    (hl1 : ls.segs.length = px.length) (hl2 : ls.crs.length = px.length)
    (hR : saveOpt = true → CellsFree img k 0 px.length (R.map vals)) (hS : saveOpt = true → CellsFree img k 0 px.length (S.map vals)) :
    ∃ m' ls' P' R' C' S',
      pixelC A B zero fl saveOpt img k m ls px = some (m', ls', ⟨px.map (fitsOf fl), px.map (lossOf zero fl)⟩) ∧
      MemOk h0s h0c m' P' R' C' S' ∧ ls'.segs.map SegC.head = P'.map Prod.fst ∧ ls'.crs.map CrC.head = C'.map Prod.fst ∧
      ls'.segs.length = px.length ∧ ls'.crs.length = px.length ∧
      (saveOpt = true → R'.map vals = putCells img k 0 (px.map (cellOf zero fl)) (R.map vals) ∧
        S'.map vals = putCells img k 0 (px.map IntegIn.mags) (S.map vals) ∧
        m'.maxSegs = (px.map fun i => (segsOf fl i).size).foldl maxInt m.maxSegs ∧
        m'.maxCrs = (px.map fun i => i.mags.length).foldl maxNat m.maxCrs) ∧
      (saveOpt = false → R' = R ∧ S' = S) := by
  obtain ⟨h1, cs1, C1, e1, H1, hF, hV⟩ := loadAllCrs_spec hB saveOpt ls.crs C (px.map IntegIn.mags) S m.hc hC (by simp [hl2]) M.crs
  obtain ⟨h2, e2, H2⟩ := cleanSegs_spec ls.segs P R m.hs hP M.segs
  have hlen : C1.length = px.length := by
    have := congrArg List.length hV
    simpa using this
  obtain ⟨m3, ls3, cs3, P3, R3, C3, S3, e3, M3, hP3, hC3, hl3, hl4, ht, hf⟩ := integsC_spec hA zero fl saveOpt (h0s := h0s) (h0c := h0c) (k := k) himg px 0
    ⟨h2, h1, m.rsegs, m.rcrs, m.maxSegs, m.maxCrs⟩ cs1 [] R C1 [] S ⟨by simpa using H2, by simpa using H1, M.rsegs, M.rcrs⟩ hF hlen hR hS
  simp only [List.append_nil] at M3
  obtain ⟨h4, e4, H4⟩ := lossesC_spec hA zero fl px m3.hs M3.segs
  refine ⟨⟨h4, m3.hc, m3.rsegs, m3.rcrs, m3.maxSegs, m3.maxCrs⟩, ⟨ls3, cs3⟩, P3, R3, C3, S3, ?_, ⟨H4, M3.crs, M3.rsegs, M3.rcrs⟩,
    hP3, hC3, hl3, hl4, ?_, hf⟩
  · simp only [pixelC, e1, e2, hl1, e3, e4, Option.bind_eq_bind, Option.bind_some]
  · intro h
    obtain ⟨a1, a2, a3, a4⟩ := ht h
    have hm : C1.map vals = px.map IntegIn.mags := by
      rw [hV, h]
      simp
    refine ⟨a1, by rw [a2, hm], a3, ?_⟩
    have : (C1.map fun c => (vals c).length) = (C1.map vals).map List.length := by simp
    show m3.maxCrs = _
    rw [a4, this, hm]
    simp [Function.comp_def]

theorem putCells_free {δ : Type} {img k nints : Nat} {vs : List (List δ)} {acc : List (List δ)} {k' : Nat}
    (hk : k < img) (hk' : k' < img) (hne : k ≠ k') (h : CellsFree img k' 0 nints acc) : CellsFree img k' 0 nints (putCells img k 0 vs acc) := by
  intro j hj
  rw [putCells_ne, h j hj]
  intro j' _ he
  rw [Nat.zero_add, Nat.zero_add] at he
  exact hne (cell_inj hk' hk he).2.symm

theorem pixelsC_spec {A B : List Nat → Nat} (hA : Fresh A) (hB : Fresh B) (zero : β) (fl : Flags) (saveOpt : Bool) {h0s : Heap (Node β)}
    {h0c : Heap γ} {img nints : Nat} : ∀ (pxs : List (List (IntegIn β γ))) (k : Nat) (m : Mem β γ) (ls : Lists)
    (P R : List (Chunk (Node β))) (C S : List (Chunk γ)), MemOk h0s h0c m P R C S → (∀ px ∈ pxs, px.length = nints) →
    k + pxs.length ≤ img →
    ls.segs.map SegC.head = P.map Prod.fst → ls.crs.map CrC.head = C.map Prod.fst → ls.segs.length = nints → ls.crs.length = nints →
    (saveOpt = true → ∀ k', k ≤ k' → k' < k + pxs.length → CellsFree img k' 0 nints (R.map vals)) →
    (saveOpt = true → ∀ k', k ≤ k' → k' < k + pxs.length → CellsFree img k' 0 nints (S.map vals)) →
    ∃ m' ls' P' R' C' S',
      pixelsC A B zero fl saveOpt img k m ls pxs =
        some (m', ls', pxs.map fun px => ⟨px.map (fitsOf fl), px.map (lossOf zero fl)⟩) ∧
      MemOk h0s h0c m' P' R' C' S' ∧ ls'.segs.map SegC.head = P'.map Prod.fst ∧ ls'.crs.map CrC.head = C'.map Prod.fst ∧
      (saveOpt = true → R'.map vals = putAll img k (pxs.map (List.map (cellOf zero fl))) (R.map vals) ∧
        S'.map vals = putAll img k (pxs.map (List.map IntegIn.mags)) (S.map vals) ∧
        m'.maxSegs = (pxs.flatMap fun px => px.map fun i => (segsOf fl i).size).foldl maxInt m.maxSegs ∧
        m'.maxCrs = (pxs.flatMap fun px => px.map fun i => i.mags.length).foldl maxNat m.maxCrs) ∧
      (saveOpt = false → R' = R ∧ S' = S) := by
  intro pxs
  induction pxs with
  | nil =>
    intro k m ls P R C S M _ _ hP hC _ _ _ _
    exact ⟨m, ls, P, R, C, S, rfl, M, hP, hC, fun _ => ⟨rfl, rfl, rfl, rfl⟩, fun _ => ⟨rfl, rfl⟩⟩
  | cons px pxs ih =>
    intro k m ls P R C S M hpx hk hP hC hl1 hl2 hR hS
    have hn : px.length = nints := hpx px (by simp)
    simp only [List.length_cons] at hk hR hS
    obtain ⟨m1, ls1, P1, R1, C1, S1, e1, M1, hP1, hC1, hl3, hl4, ht, hf⟩ := pixelC_spec hA hB zero fl saveOpt (img := img) (k := k)
      (by omega) px m ls P R C S M hP hC (by omega) (by omega)
      (fun h => by rw [hn]; exact hR h k (by omega) (by omega)) (fun h => by rw [hn]; exact hS h k (by omega) (by omega))
    obtain ⟨m2, ls2, P2, R2, C2, S2, e2, M2, hP2, hC2, ht2, hf2⟩ := ih (k + 1) m1 ls1 P1 R1 C1 S1 M1
      (fun p h => hpx p (List.mem_cons_of_mem _ h)) (by omega) hP1 hC1 (by omega) (by omega)
      (fun h k' h1 h2 => by
        rw [(ht h).1]
        exact putCells_free (by omega) (by omega) (by omega) (hR h k' (by omega) (by omega)))
      (fun h k' h1 h2 => by
        rw [(ht h).2.1]
        exact putCells_free (by omega) (by omega) (by omega) (hS h k' (by omega) (by omega)))
    refine ⟨m2, ls2, P2, R2, C2, S2, ?_, M2, hP2, hC2, ?_, ?_⟩
    · simp only [pixelsC, e1, e2, Option.bind_eq_bind, Option.bind_some, List.map_cons]
    · intro h
      obtain ⟨a1, a2, a3, a4⟩ := ht h
      obtain ⟨b1, b2, b3, b4⟩ := ht2 h
      refine ⟨by rw [b1, a1]; rfl, by rw [b2, a2]; rfl, ?_, ?_⟩
      · rw [b3, a3, List.flatMap_cons, List.foldl_append]
      · rw [b4, a4, List.flatMap_cons, List.foldl_append]
    · intro h
      rw [(hf2 h).1, (hf2 h).2, (hf h).1, (hf h).2]
      exact ⟨rfl, rfl⟩

/-! ## Largest numbers -/

theorem foldl_maxInt : ∀ (l : List Nat) (m : Int), (∀ n ∈ l, (n : Int) ≤ l.foldl maxInt m) ∧ m ≤ l.foldl maxInt m := by
  intro l
  induction l with
  | nil => intro m; exact ⟨by simp, le_refl _⟩
  | cons n l ih =>
    intro m
    have h := ih (maxInt m n)
    have h1 : m ≤ maxInt m n ∧ (n : Int) ≤ maxInt m n := by
      simp only [maxInt]
      split_ifs <;> omega
    rw [List.foldl_cons]
    refine ⟨fun x hx => ?_, h1.1.trans h.2⟩
    rcases List.mem_cons.mp hx with rfl | hx
    · exact h1.2.trans h.2
    · exact h.1 x hx

theorem foldl_maxNat : ∀ (l : List Nat) (m : Nat), (∀ n ∈ l, n ≤ l.foldl maxNat m) ∧ m ≤ l.foldl maxNat m := by
  intro l
  induction l with
  | nil => intro m; exact ⟨by simp, le_refl _⟩
  | cons n l ih =>
    intro m
    have h := ih (maxNat m n)
    have h1 : m ≤ maxNat m n ∧ n ≤ maxNat m n := by
      simp only [maxNat]
      split_ifs <;> omega
    rw [List.foldl_cons]
    refine ⟨fun x hx => ?_, h1.1.trans h.2⟩
    rcases List.mem_cons.mp hx with rfl | hx
    · exact h1.2.trans h.2
    · exact h.1 x hx

theorem foldl_maxInt_mem : ∀ (l : List Nat) (m : Int), l.foldl maxInt m = m ∨ ∃ n ∈ l, l.foldl maxInt m = n := by
  intro l
  induction l with
  | nil => exact fun m => Or.inl rfl
  | cons n l ih =>
    intro m
    rw [List.foldl_cons]
    rcases ih (maxInt m n) with h | ⟨x, hx, h⟩
    · rw [h, maxInt]
      split_ifs
      · exact Or.inr ⟨n, by simp, rfl⟩
      · exact Or.inl rfl
    · exact Or.inr ⟨x, by simp [hx], h⟩

theorem foldl_maxNat_mem : ∀ (l : List Nat) (m : Nat), l.foldl maxNat m = m ∨ ∃ n ∈ l, l.foldl maxNat m = n := by
  intro l
  induction l with
  | nil => exact fun m => Or.inl rfl
  | cons n l ih =>
    intro m
    rw [List.foldl_cons]
    rcases ih (maxNat m n) with h | ⟨x, hx, h⟩
    · rw [h, maxNat]
      split_ifs
      · exact Or.inr ⟨n, by simp, rfl⟩
      · exact Or.inl rfl
    · exact Or.inr ⟨x, by simp [hx], h⟩

/-! ## Optional product and end -/

theorem cellsC_spec {h0 h : Heap β} {ch R : List (Chunk β)} (H : Holds h0 h ch) (planes : Int) (hs : ∀ c ∈ R, c ∈ ch)
    (hp : ∀ c ∈ R, ((vals c).length : Int) ≤ planes) : (R.map Prod.fst).mapM (cellC h planes) = some (R.map vals) := by
  induction R with
  | nil => rfl
  | cons c R ih =>
    have e1 : cellC h planes c.1 = some (vals c) := by
      rw [cellC, H.read (hs c (by simp)), Option.bind_some]
      exact if_pos (hp c (by simp))
    rw [List.map_cons, List.mapM_cons, e1, ih (fun d hd => hs d (List.mem_cons_of_mem _ hd)) fun d hd => hp d (List.mem_cons_of_mem _ hd)]
    rfl

theorem freeHeads_spec {h0 : Heap β} : ∀ (R ch : List (Chunk β)) (h : Heap β), Holds h0 h (R ++ ch) →
    ∃ h', freeHeads h (R.map Prod.fst) = some h' ∧ Holds h0 h' ch := by
  intro R
  induction R with
  | nil => exact fun ch h H => ⟨h, rfl, H⟩
  | cons c R ih =>
    intro ch h H
    obtain ⟨h1, e1, H1⟩ := Holds.freeAll (c := c) (ch := R ++ ch) H
    obtain ⟨h2, e2, H2⟩ := ih ch h1 H1
    refine ⟨h2, ?_, H2⟩
    rw [freeHeads, List.map_cons, List.foldlM_cons, e1]
    exact e2

end Verif.OlsHeap
