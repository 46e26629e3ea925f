import Verif.Thm.Reuse

/-!
# Read-level linearity correction of a whole exposure: properties C21, C137 and C138
-/

set_option linter.unusedSectionVars false

namespace Verif.Thm

open Verif Verif.Linearity

variable {α : Type} [Field α] [LinearOrder α]

/-! ## Reading the driver -/

theorem rl_mapM_get {β γ : Type} (f : β → Option γ) (l : List β) (l' : List γ)
    (h : l.mapM f = some l') (k : Nat) (a : β) (hk : l[k]? = some a) :
    ∃ b, f a = some b ∧ l'[k]? = some b := by
  induction l generalizing l' k with
  | nil => simp at hk
  | cons x l ih =>
    rw [List.mapM_cons] at h
    cases hx : f x with
    | none => rw [hx] at h; simp at h
    | some y =>
      cases hl : l.mapM f with
      | none => rw [hx, hl] at h; simp at h
      | some ys =>
        rw [hx, hl] at h
        simp only [Option.pure_def, Option.bind_eq_bind, Option.bind_some, Option.some.injEq] at h
        subst h
        cases k with
        | zero =>
          simp only [List.getElem?_cons_zero, Option.some.injEq] at hk
          subst hk
          exact ⟨y, hx, by simp⟩
        | succ k =>
          simp only [List.getElem?_cons_succ] at hk ⊢
          exact ih ys hl k hk

theorem rl_mapM_some {β γ : Type} (f : β → Option γ) (l : List β) :
    (∃ l', l.mapM f = some l') ↔ ∀ a ∈ l, ∃ b, f a = some b := by
  induction l with
  | nil => simp
  | cons x l ih =>
    rw [List.mapM_cons]
    cases hx : f x with
    | none => simp [hx]
    | some y =>
      cases hl : l.mapM f with
      | none =>
        rw [hl] at ih
        simp only [reduceCtorEq, exists_false, false_iff] at ih
        simp only [Option.bind_eq_bind, Option.bind_some, Option.bind_none, reduceCtorEq,
          exists_false, List.mem_cons, forall_eq_or_imp, hx, false_iff, not_and]
        intro _
        exact ih
      | some ys =>
        rw [hl] at ih
        have := ih.mp ⟨_, rfl⟩
        simp only [Option.pure_def, Option.bind_eq_bind, Option.bind_some, Option.some.injEq,
          exists_eq', List.mem_cons, forall_eq_or_imp, hx, true_and, true_iff]
        exact this

theorem rl_prepare_some (c : List (Option α)) (linDq pdq nlc : Nat) :
    (∃ q, prepare c linDq pdq nlc = some q) ↔ 2 ≤ c.length := by
  constructor
  · rintro ⟨q, h⟩; exact rx_two_le c linDq pdq nlc q h
  · intro h
    by_cases hn : NoSolution c linDq nlc
    · obtain ⟨p, hp, _⟩ := prepare_bad c linDq pdq nlc h hn; exact ⟨_, hp⟩
    · exact ⟨_, prepare_good c linDq pdq nlc h hn⟩

/-- Specification: an additional correction that looks at one read at a time and
adds `e v` to a read `v`; `none` is no additional correction, NaN stays NaN. -/
def rlAdd (e : Option (α → α)) : Additional α :=
  e.map (fun e t => t.map (List.map (List.map (Option.map e))))

/-- Specification: a read after the additional correction. -/
def rlRead (e : Option (α → α)) (v : α) : α :=
  match e with
  | none => v
  | some e => v + e v

theorem rl_addReads (e : α → α) (l : List (Option α)) :
    List.zipWith oadd l (l.map (Option.map e)) = l.map (Option.map (rlRead (some e))) := by
  induction l with
  | nil => rfl
  | cons v l ih =>
    simp only [List.map_cons, List.zipWith_cons_cons, ih]
    cases v <;> rfl

theorem rl_tileResultant (sat : Nat) (pat : List (List Nat)) (ad : Option (α → α)) (g : Nat)
    (tile : List (List (Px α))) :
    tileResultant sat pat (rlAdd ad) g tile = tile.map (List.map (fun p =>
      finishResultant sat g p ((adjustedReads sat pat g p).map (Option.map (rlRead ad))))) := by
  cases ad with
  | none =>
    rw [show (rlAdd (none : Option (α → α))) = none from rfl, tileResultant_none]
    have : (rlRead (none : Option (α → α))) = id := rfl
    simp [this]
  | some e =>
    simp only [rlAdd, Option.map_some]
    rw [tileResultant_rowlocal]
    apply List.map_congr_left
    intro row hrow
    clear hrow
    induction row with
    | nil => rfl
    | cons p row ih =>
      simp only [List.map_cons, List.zipWith_cons_cons, rl_addReads]
      rw [← ih]

/-- One pixel of the output of the read-level path. -/
theorem rl_pixel (sat nlc : Nat) (pat : List (List Nat)) (add : Additional α)
    (nints ngroups : Nat) (useZ : Bool) (img : List (List (RawPx α))) (o : ImageOut α)
    (h : linearityRead sat nlc (some pat) add nints ngroups useZ img = some o)
    (y x : Nat) (row : List (RawPx α)) (r : RawPx α)
    (hy : img[y]? = some row) (hx : row[x]? = some r) :
    ∃ rd, readyPx nlc r = some rd ∧
      (∃ prow, o.pdq[y]? = some prow ∧ prow[x]? = some rd.pdq) ∧
      (useZ = true → ∃ z zrow, o.zframe = some z ∧ z[y]? = some zrow ∧
        zrow[x]? = some (r.zframe.map (zeroFrame rd.coeffs sat))) ∧
      (∀ e, add = rlAdd e → ∀ i g, i < nints → g < ngroups →
        ∃ ints grp orow, o.data[i]? = some ints ∧ ints[g]? = some grp ∧ grp[y]? = some orow ∧
          orow[x]? = some (finishResultant sat g (rd.px i)
            ((adjustedReads sat pat g (rd.px i)).map (Option.map (rlRead e))))) := by
  simp only [linearityRead] at h
  cases hm : img.mapM (fun row => row.mapM (readyPx nlc)) with
  | none => rw [hm] at h; simp at h
  | some rows =>
    rw [hm] at h
    simp only [Option.some.injEq] at h
    obtain ⟨rrow, hrow, hry⟩ := rl_mapM_get _ img rows hm y row hy
    obtain ⟨rd, hrd, hrx⟩ := rl_mapM_get _ row rrow hrow x r hx
    have hraw : rd.raw = r := by
      simp only [readyPx] at hrd
      split at hrd
      · simp at hrd
      · split at hrd
        · simp at hrd
        · simp only [Option.some.injEq] at hrd; subst hrd; rfl
    subst h
    refine ⟨rd, hrd, ⟨rrow.map ReadyPx.pdq, by simp [hry], by simp [hrx]⟩, ?_, ?_⟩
    · intro hz
      refine ⟨_, _, if_pos hz, by simp only [List.getElem?_map, hry]; rfl, ?_⟩
      simp [hrx, hraw]
    · intro ad ha i g hi hg
      subst ha
      have e := C22_tiling_transparent sat pat (rlAdd ad) ngroups 64
        (rows.map (fun row => row.map (ReadyPx.px i))) (by norm_num) (by
          intro f hf
          cases ad with
          | none => simp [rlAdd] at hf
          | some q =>
            simp only [rlAdd, Option.map_some, Option.some.injEq] at hf
            subst hf
            exact ⟨_, fun _ => rfl⟩)
      refine ⟨tileCorrect sat pat (rlAdd ad) ngroups (rows.map (fun row => row.map (ReadyPx.px i))),
        tileResultant sat pat (rlAdd ad) g (rows.map (fun row => row.map (ReadyPx.px i))),
        (rrow.map (ReadyPx.px i)).map
          (fun p => finishResultant sat g p
            ((adjustedReads sat pat g p).map (Option.map (rlRead ad)))), ?_, ?_, ?_, ?_⟩
      · simp [hi, e]
      · simp [tileCorrect, hg]
      · rw [rl_tileResultant]
        simp [hry]
      · simp [hrx]

/-! ## C21 -/

/-- Specification: an additional correction that returns an array of the shape it was given (whatever the values, and
whatever it looks at). -/
def LiShape (add : Additional α) : Prop :=
  ∀ f, add = some f → ∀ t : List (List (List (Option α))), (f t).map List.length = t.map List.length

theorem li_zip_get {β γ δ : Type} (h : β → γ → δ) (l : List (List β)) (m : List (List γ))
    (e : m.map List.length = l.map List.length) (y x : Nat) (row : List β) (p : β)
    (hy : l[y]? = some row) (hx : row[x]? = some p) :
    ∃ orow q, (List.zipWith (List.zipWith h) l m)[y]? = some orow ∧ orow[x]? = some (h p q) := by
  obtain ⟨hyl, hye⟩ := List.getElem?_eq_some_iff.mp hy
  obtain ⟨hxl, hxe⟩ := List.getElem?_eq_some_iff.mp hx
  have hml : m.length = l.length := by simpa using congrArg List.length e
  have hrow : (m[y]'(by omega)).length = row.length := by
    have h1 : (m.map List.length)[y]? = (l.map List.length)[y]? := by rw [e]
    rw [List.getElem?_map, List.getElem?_map, hy, List.getElem?_eq_getElem (by omega : y < m.length)] at h1
    simpa using h1
  refine ⟨List.zipWith h row (m[y]'(by omega)), (m[y]'(by omega))[x]'(by omega), ?_, ?_⟩
  · rw [List.getElem?_zipWith, hy, List.getElem?_eq_getElem (by omega : y < m.length)]
  · rw [List.getElem?_zipWith, hx, List.getElem?_eq_getElem (by omega)]

theorem li_reads_shape (sat : Nat) (pat : List (List Nat)) (add : Additional α) (hs : LiShape add) (g : Nat)
    (tile : List (List (Px α))) :
    List.map List.length (match add with
      | none => tile.map (fun row => row.map (adjustedReads sat pat g))
      | some f => addReads (tile.map (fun row => row.map (adjustedReads sat pat g)))
          (f (tile.map (fun row => row.map (adjustedReads sat pat g))))) = tile.map List.length := by
  cases add with
  | none => simp
  | some f =>
    simp only [addReads]
    have h := hs f rfl (tile.map (fun row => row.map (adjustedReads sat pat g)))
    generalize f (tile.map (fun row => row.map (adjustedReads sat pat g))) = m at h ⊢
    simp only [List.map_map] at h
    clear hs
    induction tile generalizing m with
    | nil => simp
    | cons r t ih =>
      cases m with
      | nil => simp at h
      | cons a m =>
        simp only [List.map_cons, Function.comp, List.length_map, List.cons.injEq] at h
        simp only [List.map_cons, List.zipWith_cons_cons, List.length_zipWith, List.length_map, h.1, min_self,
          List.cons.injEq, true_and]
        exact ih m (by simpa [Function.comp_def] using h.2)

theorem li_tile (sat : Nat) (pat : List (List Nat)) (add : Additional α) (hs : LiShape add) (ngroups tileRows : Nat)
    (ht : 1 ≤ tileRows) (g : Nat) (hg : g < ngroups) :
    ∀ (fuel : Nat) (rows : List (List (Px α))), rows.length ≤ fuel →
      ∃ grp, (tileLoop sat pat add ngroups tileRows fuel rows)[g]? = some grp ∧
        ∀ (y x : Nat) (row : List (Px α)) (p : Px α), rows[y]? = some row → row[x]? = some p →
          ∃ orow reads, grp[y]? = some orow ∧ orow[x]? = some (finishResultant sat g p reads) := by
  intro fuel
  induction fuel with
  | zero =>
    intro rows hr
    have : rows = [] := List.length_eq_zero_iff.mp (by omega)
    subst this
    exact ⟨[], by simp [tileLoop, hg], by simp⟩
  | succ fuel ih =>
    intro rows hr
    unfold tileLoop
    split
    · rename_i h; subst h
      exact ⟨[], by simp [hg], by simp⟩
    · rename_i h
      have hpos := List.length_pos_of_ne_nil h
      obtain ⟨grp, h1, h2⟩ := ih (rows.drop tileRows) (by simp; omega)
      have hsh := li_reads_shape sat pat add hs g (rows.take tileRows)
      have hlen : (tileResultant sat pat add g (rows.take tileRows)).length = (rows.take tileRows).length := by
        have := congrArg List.length hsh
        simp only [List.length_map] at this
        simp only [tileResultant, List.length_zipWith]
        exact (congrArg (min _) this).trans (min_self _)
      refine ⟨tileResultant sat pat add g (rows.take tileRows) ++ grp, ?_, ?_⟩
      · rw [List.getElem?_zipWith, h1]
        simp [tileCorrect, hg]
      · intro y x row p hy hx
        by_cases hyt : y < tileRows
        · have hy' : (rows.take tileRows)[y]? = some row := by rw [List.getElem?_take, if_pos hyt, hy]
          obtain ⟨orow, q, e1, e2⟩ := li_zip_get (finishResultant sat g) _ _ hsh y x row p hy' hx
          refine ⟨orow, q, ?_, e2⟩
          have hyl : y < (rows.take tileRows).length := (List.getElem?_eq_some_iff.mp hy').1
          rw [List.getElem?_append_left (by omega)]
          exact e1
        · have hyl : y < rows.length := (List.getElem?_eq_some_iff.mp hy).1
          have hl' : (rows.take tileRows).length = tileRows := by simp; omega
          have hy' : (rows.drop tileRows)[y - tileRows]? = some row := by
            rw [List.getElem?_drop, show tileRows + (y - tileRows) = y by omega, hy]
          obtain ⟨orow, q, e1, e2⟩ := h2 _ x row p hy' hx
          refine ⟨orow, q, ?_, e2⟩
          rw [List.getElem?_append_right (by omega), hlen, hl']
          exact e1

/-- C21 (read-level path, whole exposure).  Whatever the coefficients, read pattern, cap and tiling, and whatever an
additional correction returns (as long as it keeps the shape), a resultant flagged SATURATED leaves `linearity_correction`
with its input value. -/
theorem C21_read_level_exposure (sat nlc : Nat) (pat : List (List Nat)) (add : Additional α) (hs : LiShape add)
    (nints ngroups : Nat) (useZ : Bool) (img : List (List (RawPx α))) (o : ImageOut α)
    (h : linearityRead sat nlc (some pat) add nints ngroups useZ img = some o)
    (y x : Nat) (row : List (RawPx α)) (r : RawPx α) (hy : img[y]? = some row) (hx : row[x]? = some r)
    (i g : Nat) (hi : i < nints) (hg : g < ngroups) (vs : List (Option α)) (v : Option α) (dqs : List Nat) (d : Nat)
    (hv : r.data[i]? = some vs) (hvg : vs[g]? = some v) (hd : r.gdq[i]? = some dqs) (hdg : dqs[g]? = some d)
    (hsat : Dq.Has d sat) :
    ∃ ints grp orow, o.data[i]? = some ints ∧ ints[g]? = some grp ∧ grp[y]? = some orow ∧ orow[x]? = some v := by
  simp only [linearityRead] at h
  cases hm : img.mapM (fun row => row.mapM (readyPx nlc)) with
  | none => rw [hm] at h; simp at h
  | some rows =>
    rw [hm] at h
    simp only [Option.some.injEq] at h
    obtain ⟨rrow, hrow, hry⟩ := rl_mapM_get _ img rows hm y row hy
    obtain ⟨rd, hrd, hrx⟩ := rl_mapM_get _ row rrow hrow x r hx
    have hraw : rd.raw = r := by
      simp only [readyPx] at hrd
      split at hrd
      · simp at hrd
      · split at hrd
        · simp at hrd
        · simp only [Option.some.injEq] at hrd; subst hrd; rfl
    subst h
    obtain ⟨grp, h1, h2⟩ := li_tile sat pat add hs ngroups 64 (by norm_num) g hg
      (rows.map (fun row => row.map (ReadyPx.px i))).length (rows.map (fun row => row.map (ReadyPx.px i))) le_rfl
    obtain ⟨orow, reads, h3, h4⟩ := h2 y x (rrow.map (ReadyPx.px i)) (rd.px i) (by simp [hry]) (by simp [hrx])
    refine ⟨_, grp, orow, by simp only [List.getElem?_map, List.getElem?_range hi]; rfl, h1, h3, ?_⟩
    rw [h4, C21_read_level_saturated_kept sat g (rd.px i) reads v]
    · simp [ReadyPx.px, hraw, hv, hvg]
    · simpa [ReadyPx.px, hraw, hd, hdg] using hsat

/-! ## C137 -/

/-- C137 (when the call returns).  `linearity_correction` with inverse coefficients
returns iff a read pattern was given and every pixel has at least two
coefficients of each kind. -/
theorem C137_returns_iff (sat nlc : Nat) (pattern : Option (List (List Nat))) (add : Additional α)
    (nints ngroups : Nat) (useZ : Bool) (img : List (List (RawPx α))) :
    (∃ o, linearityRead sat nlc pattern add nints ngroups useZ img = some o) ↔
      pattern ≠ none ∧ ∀ row ∈ img, ∀ r ∈ row, 2 ≤ r.coeffs.length ∧ 2 ≤ r.icoeffs.length := by
  have hready : ∀ r : RawPx α, (∃ rd, readyPx nlc r = some rd) ↔
      2 ≤ r.coeffs.length ∧ 2 ≤ r.icoeffs.length := by
    intro r
    constructor
    · rintro ⟨rd, h⟩
      simp only [readyPx] at h
      split at h
      · simp at h
      · rename_i c p h1
        split at h
        · simp at h
        · rename_i ic p' h2
          exact ⟨rx_two_le _ _ _ _ _ h1, rx_two_le _ _ _ _ _ h2⟩
    · rintro ⟨h1, h2⟩
      obtain ⟨⟨c, p⟩, e1⟩ := (rl_prepare_some r.coeffs r.linDq r.pdq nlc).mpr h1
      obtain ⟨⟨ic, p'⟩, e2⟩ := (rl_prepare_some r.icoeffs r.linDq p nlc).mpr h2
      exact ⟨_, by simp only [readyPx, e1, e2]; rfl⟩
  cases pattern with
  | none => simp [linearityRead]
  | some pat =>
    have hrow := rl_mapM_some (fun row : List (RawPx α) => row.mapM (readyPx nlc)) img
    have hin : ∀ row : List (RawPx α), (∃ l, row.mapM (readyPx nlc) = some l) ↔
        ∀ r ∈ row, 2 ≤ r.coeffs.length ∧ 2 ≤ r.icoeffs.length := by
      intro row
      rw [rl_mapM_some]
      exact forall₂_congr (fun r _ => hready r)
    have e : (∃ o, linearityRead sat nlc (some pat) add nints ngroups useZ img = some o) ↔
        ∃ l, img.mapM (fun row => row.mapM (readyPx nlc)) = some l := by
      simp only [linearityRead]
      cases img.mapM (fun row => row.mapM (readyPx nlc)) with
      | none => simp
      | some l => simp
    rw [e, hrow]
    simp only [ne_eq, reduceCtorEq, not_false_eq_true, true_and]
    exact forall₂_congr (fun row _ => hin row)

/-- C137 (DQ).  Each pixel of the output DQ holds the input flags, the reference
flags, and NO_LIN_CORR iff the coefficients or the inverse coefficients give no
usable solution; no other bit. -/
theorem C137_flags (sat nlc : Nat) (pattern : Option (List (List Nat))) (add : Additional α)
    (nints ngroups : Nat) (useZ : Bool) (img : List (List (RawPx α))) (o : ImageOut α)
    (h : linearityRead sat nlc pattern add nints ngroups useZ img = some o)
    (y x : Nat) (row : List (RawPx α)) (r : RawPx α)
    (hy : img[y]? = some row) (hx : row[x]? = some r) :
    ∃ prow p, o.pdq[y]? = some prow ∧ prow[x]? = some p ∧
      ∀ b, p.testBit b = true ↔ r.pdq.testBit b = true ∨ r.linDq.testBit b = true ∨
        (nlc.testBit b = true ∧
          (NoSolution r.coeffs r.linDq nlc ∨ NoSolution r.icoeffs r.linDq nlc)) := by
  cases pattern with
  | none => simp [linearityRead] at h
  | some pat =>
    obtain ⟨rd, hrd, ⟨prow, h1, h2⟩, _, _⟩ :=
      rl_pixel sat nlc pat add nints ngroups useZ img o h y x row r hy hx
    refine ⟨prow, rd.pdq, h1, h2, ?_⟩
    simp only [readyPx] at hrd
    have key : ∀ (c : List (Option α)) (p0 : Nat) (c' : List (Option α)) (p : Nat),
        prepare c r.linDq p0 nlc = some (c', p) → ∀ b, (p.testBit b = true ↔
          p0.testBit b = true ∨ r.linDq.testBit b = true ∨
            (nlc.testBit b = true ∧ NoSolution c r.linDq nlc)) := by
      intro c p0 c' p hp b
      have hl := rx_two_le _ _ _ _ _ hp
      by_cases hn : NoSolution c r.linDq nlc
      · obtain ⟨q, hq, hb⟩ := prepare_bad c r.linDq p0 nlc hl hn
        rw [hq] at hp
        cases hp
        rw [hb]
        simp [hn, or_assoc]
      · rw [prepare_good c r.linDq p0 nlc hl hn] at hp
        cases hp
        simp [hn, Nat.testBit_or]
    split at hrd
    · simp at hrd
    · rename_i c p hp
      split at hrd
      · simp at hrd
      · rename_i ic p' hp'
        simp only [Option.some.injEq] at hrd
        subst hrd
        intro b
        simp only
        rw [key _ _ _ _ hp' b, key _ _ _ _ hp b]
        tauto

/-- C137 (zero frame).  The zero frame is corrected with the coefficients alone,
exactly as by a call without inverse coefficients: the read pattern, inverse
coefficients, cap and additional correction play no part. -/
theorem C137_zero_frame (sat nlc : Nat) (pattern : Option (List (List Nat))) (add : Additional α)
    (nints ngroups : Nat) (img : List (List (RawPx α))) (o : ImageOut α)
    (h : linearityRead sat nlc pattern add nints ngroups true img = some o)
    (y x : Nat) (row : List (RawPx α)) (r : RawPx α)
    (hy : img[y]? = some row) (hx : row[x]? = some r) :
    ∃ z zrow g, o.zframe = some z ∧ z[y]? = some zrow ∧
      linearityPixel r.data r.gdq r.pdq r.coeffs r.linDq sat nlc (some r.zframe) = some g ∧
      zrow[x]? = g.zframe := by
  cases pattern with
  | none => simp [linearityRead] at h
  | some pat =>
    obtain ⟨rd, hrd, _, hz, _⟩ :=
      rl_pixel sat nlc pat add nints ngroups true img o h y x row r hy hx
    obtain ⟨z, zrow, h1, h2, h3⟩ := hz rfl
    simp only [readyPx] at hrd
    split at hrd
    · simp at hrd
    · rename_i c p hp
      split at hrd
      · simp at hrd
      · simp only [Option.some.injEq] at hrd
        subst hrd
        refine ⟨z, zrow, _, h1, h2, by simp only [linearityPixel, hp]; rfl, ?_⟩
        simpa using h3

theorem rl_getElem?_map_some (l : List α) (k : Nat) (v : α) (h : l[k]? = some v) :
    (l.map some)[k]? = some (some v) := by simp [h]

theorem rl_prepared (c : List (Option α)) (linDq pdq nlc : Nat) (q : List (Option α) × Nat)
    (h : prepare c linDq pdq nlc = some q) :
    ∃ d : List α, 2 ≤ d.length ∧ q.1 = d.map some := by
  have h2 := rx_two_le _ _ _ _ _ h
  by_cases hn : NoSolution c linDq nlc
  · obtain ⟨p, hp, _⟩ := prepare_bad c linDq pdq nlc h2 hn
    rw [hp] at h
    cases h
    exact ⟨_, by simpa using h2, benCoeffs_eq _⟩
  · have hp := prepare_good c linDq pdq nlc h2 hn
    rw [hp] at h
    cases h
    simp only [NoSolution, not_or] at hn
    refine ⟨c.map (fun x => x.getD 0), by simpa using h2, ?_⟩
    simp only [List.map_map]
    conv_lhs => rw [← List.map_id c]
    apply List.map_congr_left
    intro x hx
    cases x with
    | none => exact absurd hx hn.2.1
    | some v => rfl

theorem rl_applyPolyDq_some (c : List α) (h : 2 ≤ c.length) (sat dq : Nat) (v : α) :
    ∃ w, applyPolyDq (c.map some) sat dq (some v) = some w := by
  simp only [applyPolyDq]
  split
  · exact ⟨_, rfl⟩
  · exact ⟨_, applyPoly_some c v h⟩

theorem rl_lastValid_lt (sat : Nat) (gdq : List Nat) (n : Nat) (hl : gdq.length = n) (hn : 2 ≤ n) :
    1 ≤ lastValid sat gdq ∧ lastValid sat gdq < n := by
  have := List.length_filter_le (fun d => decide (d &&& sat = 0)) gdq
  simp only [lastValid]
  split <;> omega

/-- C137 (agreement with the group-level path).  When every resultant is a single
read (read numbers increasing, at least two resultants), no cap and no
additional correction apply, and the pixel's science values are numbers, the
read-level path returns for every integration and group the value that the
group-level path returns. -/
theorem C137_single_reads_agree [CharZero α] (sat nlc : Nat) (ks : List Nat)
    (nints : Nat) (useZ : Bool) (img : List (List (RawPx α))) (o : ImageOut α)
    (hks : ks.Pairwise (· < ·)) (hk2 : 2 ≤ ks.length)
    (h : linearityRead sat nlc (some (ks.map (fun k => [k]))) none nints ks.length useZ img = some o)
    (y x : Nat) (row : List (RawPx α)) (r : RawPx α)
    (hy : img[y]? = some row) (hx : row[x]? = some r) (hcap : r.satval = none)
    (i : Nat) (vs : List α) (dqs : List Nat) (hi : i < nints)
    (hv : r.data[i]? = some (vs.map some)) (hvl : vs.length = ks.length)
    (hd : r.gdq[i]? = some dqs) (hdl : dqs.length = ks.length) :
    ∃ g, linearityPixel r.data r.gdq r.pdq r.coeffs r.linDq sat nlc none = some g ∧
      ∀ k, k < ks.length → ∃ ints grp orow grow v,
        o.data[i]? = some ints ∧ ints[k]? = some grp ∧ grp[y]? = some orow ∧
        g.data[i]? = some grow ∧ grow[k]? = some v ∧ orow[x]? = some v := by
  obtain ⟨rd, hrd, _, _, hdat⟩ :=
    rl_pixel sat nlc _ none nints ks.length useZ img o h y x row r hy hx
  simp only [readyPx] at hrd
  split at hrd
  · simp at hrd
  · rename_i c p hp
    split at hrd
    · simp at hrd
    · rename_i ic p' hp'
      simp only [Option.some.injEq] at hrd
      refine ⟨_, by simp only [linearityPixel, hp]; rfl, ?_⟩
      intro k hk
      obtain ⟨ints, grp, orow, h1, h2, h3, h4⟩ := hdat none rfl i k hi hk
      rw [show (rlRead (none : Option (α → α))) = id from rfl, Option.map_id, List.map_id] at h4
      obtain ⟨d, hdl2, hdc⟩ := rl_prepared _ _ _ _ _ hp
      obtain ⟨e, hel2, hec⟩ := rl_prepared _ _ _ _ _ hp'
      simp only at hdc hec
      have hpx : rd.px i = ⟨vs.map some, dqs, d.map some, e.map some, none⟩ := by
        subst hrd
        simp [ReadyPx.px, hv, hd, hcap, hdc, hec]
      have hval : ∀ j, j < ks.length → ∃ v, vs[j]? = some v := fun j hj =>
        ⟨_, List.getElem?_eq_getElem (by omega)⟩
      have hpat : ∀ j (hj : j < ks.length), (ks.map (fun k => [k]))[j]? = some [ks[j]] := by
        intro j hj; simp [hj]
      have hmean : ∀ n : Nat, meanRead [n] = (some (n : α) : Option α) := by
        intro n
        have := omean_map_some [(n : α)] (by simp)
        simpa [meanRead] using this
      obtain ⟨hl1, hl2⟩ := rl_lastValid_lt sat dqs ks.length hdl hk2
      obtain ⟨v0, hv0⟩ := hval 0 (by omega)
      obtain ⟨vl, hvl'⟩ := hval _ hl2
      obtain ⟨v, hvk⟩ := hval k hk
      obtain ⟨f, hf⟩ := rl_applyPolyDq_some d hdl2 sat ((dqs[0]?).getD 0) v0
      obtain ⟨l, hlast⟩ := rl_applyPolyDq_some d hdl2 sat ((dqs[lastValid sat dqs]?).getD 0) vl
      have hne : ((ks[lastValid sat dqs] : Nat) : α) - ((ks[0] : Nat) : α) ≠ 0 := by
        have hlt := List.pairwise_iff_getElem.mp hks 0 (lastValid sat dqs) (by omega) hl2 (by omega)
        rw [sub_ne_zero]
        exact_mod_cast hlt.ne'
      have hfirst : firstLin sat (rd.px i) = some f := by
        rw [hpx]
        simp only [firstLin, List.getElem?_map, hv0, Option.map_some, Option.getD_some]
        exact hf
      have hm0 : (meanRead (((ks.map (fun k => [k]))[0]?).getD []) : Option α) =
          some ((ks[0] : Nat) : α) := by
        rw [hpat 0 (by omega)]
        exact hmean _
      have hrate : countRate sat (ks.map (fun k => [k])) (rd.px i) =
          some ((l - f) / (((ks[lastValid sat dqs] : Nat) : α) - ((ks[0] : Nat) : α))) := by
        have hf' := hfirst
        rw [hpx] at hf' ⊢
        simp only [countRate, hf', hm0]
        rw [hpat _ hl2]
        simp only [Option.getD_some, hmean, List.getElem?_map, hvl',
          Option.map_some, hlast, osub, odiv]
        rw [if_neg hne]
      have key := C64_single_read_agrees sat (ks.map (fun k => [k])) k ks[k] (rd.px i) f _ _ v e d
        hfirst hrate hm0 (by rw [hpx]) hel2 (by rw [hpx]) hdl2 (hpat k hk)
        (by rw [hpx]; simp [hvk]) (by rw [hpx])
      refine ⟨ints, grp, orow, simpleInt c sat (vs.map some) dqs, _, h1, h2, h3, ?_, ?_, h4⟩
      · simp [hv, hd]
      · rw [getElem?_simpleInt _ _ _ _ _ _ (rl_getElem?_map_some vs k v hvk), key, hpx, hdc]

/-! ## C138 -/

/-- Specification: the counts the detector has truly collected at read `k`. -/
def rlTrue (a b : α) (k : Nat) : α := a + b * (k : α)

/-- Specification: the mean of `f` over a list of reads. -/
def rlMean (f : Nat → α) (reads : List Nat) : α := (reads.map f).sum / (reads.length : α)

/-- Specification: the resultant from which the count rate is taken, counting the
unsaturated resultants and leaving out the last one. -/
def rlLast (sat : Nat) (dqs : List Nat) : Nat :=
  max ((dqs.filter (fun d => d &&& sat = 0)).length - 1) 2 - 1

theorem rl_lastValid (sat : Nat) (dqs : List Nat) : lastValid sat dqs = rlLast sat dqs := by
  simp only [lastValid, rlLast]
  split <;> omega

/-- C138 (with an additional correction).  The true counts at read `k` are
`a + b k`, every resultant is measured as the mean over its reads of the inverse
polynomial of the true counts, and `additional_correction` adds `e v` to a read
`v`.  If the first resultant and the one used for the count rate are single
reads, different, unsaturated and linearised by the coefficients alone, and the
coefficients give the true counts for every read after the additional
correction, then the read-level correction returns the mean of the true counts over
its reads for every unsaturated resultant.  The cap changes nothing as long as the
corrected reads stay below it. -/
theorem C138_additional [CharZero α] (sat nlc : Nat) (pattern : List (List Nat))
    (e : Option (α → α)) (nints : Nat) (useZ : Bool) (img : List (List (RawPx α))) (o : ImageOut α)
    (h : linearityRead sat nlc (some pattern) (rlAdd e) nints pattern.length useZ img = some o)
    (y x : Nat) (row : List (RawPx α)) (r : RawPx α)
    (hy : img[y]? = some row) (hx : row[x]? = some r)
    (i : Nat) (c ic : List α) (dqs : List Nat) (a b : α) (k0 k1 : Nat) (hi : i < nints)
    (hc : r.coeffs = c.map some) (hic : r.icoeffs = ic.map some)
    (hcn : ¬ NoSolution r.coeffs r.linDq nlc) (hicn : ¬ NoSolution r.icoeffs r.linDq nlc)
    (hdat : r.data[i]? = some (pattern.map (fun reads =>
      some (rlMean (fun k => polyVal ic (rlTrue a b k)) reads))))
    (hd : r.gdq[i]? = some dqs)
    (hinv : ∀ reads ∈ pattern, ∀ k ∈ reads,
      polyVal c (rlRead e (polyVal ic (rlTrue a b k))) = rlTrue a b k)
    (hi0 : polyVal c (polyVal ic (rlTrue a b k0)) = rlTrue a b k0)
    (hi1 : polyVal c (polyVal ic (rlTrue a b k1)) = rlTrue a b k1)
    (hp0 : pattern[0]? = some [k0]) (hp1 : pattern[rlLast sat dqs]? = some [k1]) (hk : k0 ≠ k1)
    (hs0 : ((dqs[0]?).getD 0) &&& sat = 0)
    (hs1 : ((dqs[rlLast sat dqs]?).getD 0) &&& sat = 0)
    (hcap : ∀ s, r.satval = some s → ∃ v, s = some v ∧ ∀ reads ∈ pattern, ∀ k ∈ reads,
      rlRead e (polyVal ic (rlTrue a b k)) ≤ 6 / 5 * v)
    (g : Nat) (reads : List Nat) (hg : pattern[g]? = some reads) (hne : reads ≠ [])
    (hsg : ((dqs[g]?).getD 0) &&& sat = 0) :
    ∃ ints grp orow, o.data[i]? = some ints ∧ ints[g]? = some grp ∧ grp[y]? = some orow ∧
      orow[x]? = some (some (rlMean (rlTrue a b) reads)) := by
  have hgl : g < pattern.length := (List.getElem?_eq_some_iff.mp hg).1
  obtain ⟨rd, hrd, _, _, hout⟩ :=
    rl_pixel sat nlc _ (rlAdd e) nints pattern.length useZ img o h y x row r hy hx
  obtain ⟨ints, grp, orow, h1, h2, h3, h4⟩ := hout e rfl i g hi hgl
  refine ⟨ints, grp, orow, h1, h2, h3, ?_⟩
  rw [h4]
  congr 1
  -- the prepared pixel
  have hrd' : rd = { raw := r, coeffs := c.map some, icoeffs := ic.map some, pdq := rd.pdq } ∧
      2 ≤ c.length ∧ 2 ≤ ic.length := by
    simp only [readyPx] at hrd
    split at hrd
    · simp at hrd
    · rename_i c' p hp
      have hl := rx_two_le _ _ _ _ _ hp
      rw [prepare_good _ _ _ _ hl hcn] at hp
      split at hrd
      · simp at hrd
      · rename_i ic' p' hp'
        have hl' := rx_two_le _ _ _ _ _ hp'
        rw [prepare_good _ _ _ _ hl' hicn] at hp'
        cases hp
        cases hp'
        simp only [Option.some.injEq] at hrd
        subst hrd
        refine ⟨?_, by simpa [hc] using hl, by simpa [hic] using hl'⟩
        rw [← hc, ← hic]
  obtain ⟨hrd', hcl, hicl⟩ := hrd'
  set P := pattern.map (fun reads => some (rlMean (fun k => polyVal ic (rlTrue a b k)) reads))
    with hP
  have hpx : rd.px i = ⟨P, dqs, c.map some, ic.map some, r.satval⟩ := by
    rw [hrd']
    simp [ReadyPx.px, hdat, hd]
  have hmem : ∀ (j : Nat) (rs : List Nat), pattern[j]? = some rs → rs ∈ pattern := fun j rs hj =>
    List.mem_of_getElem? hj
  have hPj : ∀ (j : Nat) (rs : List Nat), pattern[j]? = some rs →
      P[j]? = some (some (rlMean (fun k => polyVal ic (rlTrue a b k)) rs)) := by
    intro j rs hj
    simp [hP, hj]
  have hsingle : ∀ (f : Nat → α) k, rlMean f [k] = f k := by
    intro f k
    simp [rlMean]
  have hlin : ∀ (j k : Nat), pattern[j]? = some [k] → ((dqs[j]?).getD 0) &&& sat = 0 →
      polyVal c (polyVal ic (rlTrue a b k)) = rlTrue a b k →
      applyPolyDq (c.map some) sat ((dqs[j]?).getD 0) ((P[j]?).getD none) =
        some (rlTrue a b k) := by
    intro j k hj hs hi
    rw [hPj j [k] hj, hsingle]
    simp only [Option.getD_some, applyPolyDq, hs, ne_eq, not_true, if_false]
    have := applyPoly_some c (polyVal ic (rlTrue a b k)) hcl
    rw [this]
    exact congrArg some hi
  have hfirst : firstLin sat (rd.px i) = some (rlTrue a b k0) := by
    rw [hpx]
    exact hlin 0 k0 hp0 hs0 hi0
  have hmean : ∀ n : Nat, meanRead [n] = (some (n : α) : Option α) := by
    intro n
    have := omean_map_some [(n : α)] (by simp)
    simpa [meanRead] using this
  have hm0 : (meanRead ((pattern[0]?).getD []) : Option α) = some (k0 : α) := by
    rw [hp0]; exact hmean _
  have hkne : ((k1 : Nat) : α) - (k0 : α) ≠ 0 := by
    rw [sub_ne_zero]
    exact_mod_cast hk.symm
  have hrate : countRate sat pattern (rd.px i) = some b := by
    have hf' := hfirst
    rw [hpx] at hf' ⊢
    simp only [countRate, rl_lastValid, hf', hm0, hp1, Option.getD_some, hmean,
      hlin _ k1 hp1 hs1 hi1, osub, odiv]
    rw [if_neg hkne]
    congr 1
    simp only [rlTrue]
    field_simp
    ring
  have hread : ∀ k : Nat, rlTrue a b k0 + b * ((k : α) - (k0 : α)) = rlTrue a b k := by
    intro k
    simp only [rlTrue]
    ring
  have hadj : adjustedReads sat pattern g (rd.px i) =
      (reads.map (fun k => polyVal ic (rlTrue a b k))).map some := by
    rw [adjustedReads_eq sat pattern g (rd.px i) _ _ _ ic reads hfirst hrate hm0 (by rw [hpx]) hicl
      hg]
    simp only [hread]
    have ee : reads.map (fun k => some (polyVal ic (rlTrue a b k))) =
        (reads.map (fun k => polyVal ic (rlTrue a b k))).map some := by simp
    rw [ee, omean_map_some _ (by simpa using hne), hpx]
    simp only [hPj g reads hg, Option.getD_some, osub, rlMean, List.length_map, sub_self, oadd,
      List.map_map, Function.comp_def, add_zero]
  rw [hadj]
  have hre : ((reads.map (fun k => polyVal ic (rlTrue a b k))).map some).map
      (Option.map (rlRead e)) =
      (reads.map (fun k => rlRead e (polyVal ic (rlTrue a b k)))).map some := by
    simp
  rw [hre]
  have hcapr : ((reads.map (fun k => rlRead e (polyVal ic (rlTrue a b k)))).map some).map
      (capRead (rd.px i).satval) =
      (reads.map (fun k => rlRead e (polyVal ic (rlTrue a b k)))).map some := by
    simp only [List.map_map]
    apply List.map_congr_left
    intro k hkr
    rw [hpx]
    simp only [Function.comp]
    cases hs : r.satval with
    | none => rfl
    | some s =>
      obtain ⟨v, rfl, hle⟩ := hcap s hs
      simp only [capRead, omul, omin]
      rw [min_eq_left (hle reads (hmem _ _ hg) k hkr)]
  simp only [finishResultant, hcapr]
  rw [hpx]
  simp only [hsg, ne_eq, not_true, if_false]
  have hcorr : ((reads.map (fun k => rlRead e (polyVal ic (rlTrue a b k)))).map some).map
      (applyPoly (c.map some)) = (reads.map (rlTrue a b)).map some := by
    simp only [List.map_map]
    apply List.map_congr_left
    intro k hkr
    simp only [Function.comp]
    rw [applyPoly_some c _ hcl]
    have := hinv reads (hmem _ _ hg) k hkr
    exact congrArg some this
  rw [hcorr, omean_map_some _ (by simpa using hne)]
  simp [rlMean]

/-- C138.  A steady source seen through a non-linear detector.  The true counts at
read `k` are `a + b k`, every resultant is measured as the mean over its reads
of the inverse polynomial of the true counts, and the coefficient polynomial
undoes the inverse polynomial at the true counts.  If the first resultant and the
one used for the count rate are single reads, different and unsaturated, then
the read-level correction returns the mean of the true counts over its reads for
every unsaturated resultant, however many reads it averages.  A cap changes
nothing as long as the measured reads stay below it. -/
theorem C138_steady_source [CharZero α] (sat nlc : Nat) (pattern : List (List Nat))
    (nints : Nat) (useZ : Bool) (img : List (List (RawPx α))) (o : ImageOut α)
    (h : linearityRead sat nlc (some pattern) none nints pattern.length useZ img = some o)
    (y x : Nat) (row : List (RawPx α)) (r : RawPx α)
    (hy : img[y]? = some row) (hx : row[x]? = some r)
    (i : Nat) (c ic : List α) (dqs : List Nat) (a b : α) (k0 k1 : Nat) (hi : i < nints)
    (hc : r.coeffs = c.map some) (hic : r.icoeffs = ic.map some)
    (hcn : ¬ NoSolution r.coeffs r.linDq nlc) (hicn : ¬ NoSolution r.icoeffs r.linDq nlc)
    (hdat : r.data[i]? = some (pattern.map (fun reads =>
      some (rlMean (fun k => polyVal ic (rlTrue a b k)) reads))))
    (hd : r.gdq[i]? = some dqs)
    (hinv : ∀ reads ∈ pattern, ∀ k ∈ reads,
      polyVal c (polyVal ic (rlTrue a b k)) = rlTrue a b k)
    (hp0 : pattern[0]? = some [k0]) (hp1 : pattern[rlLast sat dqs]? = some [k1]) (hk : k0 ≠ k1)
    (hs0 : ((dqs[0]?).getD 0) &&& sat = 0)
    (hs1 : ((dqs[rlLast sat dqs]?).getD 0) &&& sat = 0)
    (hcap : ∀ s, r.satval = some s → ∃ v, s = some v ∧ ∀ reads ∈ pattern, ∀ k ∈ reads,
      polyVal ic (rlTrue a b k) ≤ 6 / 5 * v)
    (g : Nat) (reads : List Nat) (hg : pattern[g]? = some reads) (hne : reads ≠ [])
    (hsg : ((dqs[g]?).getD 0) &&& sat = 0) :
    ∃ ints grp orow, o.data[i]? = some ints ∧ ints[g]? = some grp ∧ grp[y]? = some orow ∧
      orow[x]? = some (some (rlMean (rlTrue a b) reads)) :=
  C138_additional sat nlc pattern none nints useZ img o h y x row r hy hx i c ic dqs a b k0 k1 hi
    hc hic hcn hicn hdat hd hinv (hinv _ (List.mem_of_getElem? hp0) k0 (by simp))
    (hinv _ (List.mem_of_getElem? hp1) k1 (by simp)) hp0 hp1 hk hs0 hs1 hcap g reads hg hne hsg

/-- A source collecting two counts per read, seen through a detector that `v + v^2`
linearises: the reads 1, 3, 6, 10 hold 2, 6, 12, 20 counts and are measured as
1, 2, 3, 4.  The inverse polynomial passes through these four points. -/
def rlC : List ℚ := [0, 1, 1]
def rlIc : List ℚ := [5/14, 293/840, -1/70, 1/3360]
def rlPattern : List (List Nat) := [[1], [3], [6, 10]]
def rlPx : RawPx ℚ :=
  { data := [[some 1, some 2, some (7/2)]], gdq := [[0, 0, 0]], pdq := 1,
    coeffs := rlC.map some, icoeffs := rlIc.map some, linDq := 4,
    satval := some (some 10), zframe := [some 5] }

/-- The third resultant averages the reads with 12 and 20 counts.  The read-level
path returns their mean 16; the group-level path returns 63/4, so averaging
reads costs it accuracy. -/
theorem C138_group_level_biased :
    (linearityRead 2 8 (some rlPattern) none 1 3 true [[rlPx]]).map ImageOut.data =
      some [[[[some 2]], [[some 6]], [[some 16]]]] ∧
    (linearityPixel rlPx.data rlPx.gdq rlPx.pdq rlPx.coeffs rlPx.linDq 2 8 none).map Out.data =
      some [[some 2, some 6, some (63/4)]] := by
  decide +kernel

example : (linearityRead 2 8 (some rlPattern) none 1 3 true [[rlPx]]).map ImageOut.pdq =
    some [[5]] := by decide +kernel
example : (linearityRead 2 8 (some rlPattern) none 1 3 true [[rlPx]]).map
    (fun o => o.zframe.getD []) = some [[[some 30]]] := by decide +kernel

/-- If the first resultant averages reads too, the recovery is not exact: reads
1 and 3 averaged in the first resultant give a value other than the true mean 4. -/
theorem C138_first_averaged_inexact :
    (linearityRead 2 8 (some [[1, 3], [6], [10]]) none 1 3 false
        [[{ rlPx with data := [[some (3/2), some 3, some 4]] }]]).map
        (fun o => ((((o.data[0]?).getD [])[0]?).getD [])) ≠ some [[some 4]] := by
  decide +kernel

example : (∀ reads ∈ rlPattern, ∀ k ∈ reads,
      polyVal rlC (polyVal rlIc (rlTrue 0 2 k)) = rlTrue 0 2 k) ∧
    rlPattern[rlLast 2 [0, 0, 0]]? = some [3] ∧
    rlPx.data[0]? = some (rlPattern.map (fun reads =>
      some (rlMean (fun k => polyVal rlIc (rlTrue 0 2 k)) reads))) ∧
    (∀ reads ∈ rlPattern, ∀ k ∈ reads, polyVal rlIc (rlTrue 0 2 k) ≤ 6 / 5 * 10) := by
  decide +kernel
example : ¬ NoSolution rlPx.coeffs rlPx.linDq 8 ∧ ¬ NoSolution rlPx.icoeffs rlPx.linDq 8 := by
  refine ⟨?_, ?_⟩ <;> simp [NoSolution, rlPx, rlC, rlIc]
/-- An additional correction that takes 2 off the reads of the third resultant,
which a detector measures 2 too high, and leaves the others alone. -/
def rlEx (v : ℚ) : ℚ := if v < 3 then 0 else -2
def rlIc2 : List ℚ := [17/14, -73/280, 26/315, -29/10080]
example : (∀ reads ∈ rlPattern, ∀ k ∈ reads,
      polyVal rlC (rlRead (some rlEx) (polyVal rlIc2 (rlTrue 0 2 k))) = rlTrue 0 2 k) ∧
    polyVal rlC (polyVal rlIc2 (rlTrue 0 2 1)) = rlTrue 0 2 1 ∧
    polyVal rlC (polyVal rlIc2 (rlTrue 0 2 3)) = rlTrue 0 2 3 := by decide +kernel
example : (linearityRead 2 8 (some rlPattern) (rlAdd (some rlEx)) 1 3 false
      [[{ rlPx with data := [[some 1, some 2, some (11/2)]], icoeffs := rlIc2.map some }]]).map
        ImageOut.data = some [[[[some 2]], [[some 6]], [[some 16]]]] := by
  decide +kernel
/-- An additional correction that looks at the whole tile keeps the shape; the third resultant is saturated. -/
example : LiShape (some fun t : List (List (List (Option ℚ))) =>
    t.map (List.map fun reads => reads.map fun _ => some ((t.length : ℚ) * 1000))) := by
  rintro f ⟨⟩ t
  simp [Function.comp_def]
example : (linearityRead 2 8 (some rlPattern)
      (some fun t => t.map (List.map fun reads => reads.map fun _ => some ((t.length : ℚ) * 1000))) 1 3 false
      [[{ rlPx with gdq := [[0, 0, 2]] }]]).map (fun o => (o.data[0]?.bind fun i => i[2]?)) =
    some (some [[some (7/2)]]) := by
  decide +kernel
/-- Three single-read resultants: the two paths agree. -/
example : (linearityRead 2 8 (some [[1], [3], [6]]) none 1 3 false
      [[{ rlPx with satval := none }]]).map (fun o => o.data) =
    some [[[[some 2]], [[some 6]], [[some (63/4)]]]] := by
  decide +kernel

end Verif.Thm
