import Verif.Thm.DarkSteady
import Verif.Thm.MiriGroups
import Verif.Thm.RampAgain
import Verif.Thm.Linearity
import Verif.Thm.Cas22
import Verif.Thm.OlsPixel
import Verif.Thm.Snowball

/-!
# What the code does where a listed property fails

The properties C03, C14, C18, C65, C70, C71, C72, C75 and C94 hold only in part.  The theorems here describe, for all inputs, what happens in the remaining
cases.
-/

set_option linter.unusedSectionVars false

namespace Verif.Thm

/-! ## C03 -/

section
open Verif.Slicing

/-- **C03**, exactly when it holds with suppression: when suppression makes no difference. -/
theorem C03_sliced_fit_iff {α β : Type*} (zero : β) (fitRow : Bool → α → Option β) (rows : List α)
    (nslices : Nat) (hn : 0 < nslices) :
    fitMulti zero fitRow ⟨rows, true⟩ nslices = fitSingle fitRow ⟨rows, true⟩ ↔ rows.mapM (fitRow false) = rows.mapM (fitRow true) := by
  rw [C03_sliced_fit_never_suppresses zero fitRow rows true nslices hn]
  rfl

example : fitMulti 0 (fun s (r : Nat) => some (if s then 0 else r)) ⟨[7, 8, 9], true⟩ 2 = some [7, 8, 9] := by decide

end

/-! ## C14 and C18 -/

section
open Verif.Dark

variable {α : Type} [Field α]

/-- Number of dark groups left for science group `g`, if dark groups are counted like frames and the dark has `len` of them. -/
def xcLeft (nframes groupgap len g : Nat) : Nat := min nframes (len - g * (nframes + groupgap))

/-- What is taken from science group `g`: the mean over the dark groups left for it, not a number if there are none. -/
def xcTaken (r : List (Option α)) (nframes groupgap len g : Nat) : Option α :=
  if xcLeft nframes groupgap len g = 0 then none
  else some (((List.range (xcLeft nframes groupgap len g)).map fun k => darkAt r (g * (nframes + groupgap) + k)).sum /
    (xcLeft nframes groupgap len g : α))

theorem xc_averageLoop (f : Nat → α) (L nf gap : Nat) (hnf : 2 ≤ nf) :
    ∀ (n start : Nat), averageLoop ((List.range L).map (fun i => some (f i))) nf gap n start =
        some ((List.range n).map (fun g =>
          if min nf (L - (start + g * (nf + gap))) = 0 then none
          else some (((List.range (min nf (L - (start + g * (nf + gap))))).map (fun k => f (start + g * (nf + gap) + k))).sum /
            ((min nf (L - (start + g * (nf + gap))) : Nat) : α))))
  | 0, start => by simp [averageLoop]
  | n + 1, start => by
    have ih := xc_averageLoop f L nf gap hnf n (start + nf + gap)
    have hsl : (((List.range L).map (fun i => some (f i))).drop start).take (start + nf - start) =
        ((List.range (min nf (L - start))).map (fun k => f (start + k))).map some := by
      apply List.ext_getElem
      · simp
      · intro i h1 h2
        simp
    have hthis : omean ((((List.range L).map (fun i => some (f i))).drop start).take (start + nf - start)) =
        if min nf (L - start) = 0 then none
        else some (((List.range (min nf (L - start))).map (fun k => f (start + k))).sum / ((min nf (L - start) : Nat) : α)) := by
      rw [hsl]
      split
      · rename_i h0
        rw [h0]
        simp [omean]
      · rename_i h0
        rw [omean_map_some]
        · simp
        · intro hc
          have := congrArg List.length hc
          simp at this; omega
    unfold averageLoop
    dsimp only
    rw [if_neg (by omega), hthis, ih, List.range_succ_eq_map]
    simp only [List.map_cons, List.map_map]
    congr 2
    · simp
    · apply List.map_congr_left
      intro g _
      simp only [Function.comp]
      have e : start + nf + gap + g * (nf + gap) = start + (g + 1) * (nf + gap) := by ring
      rw [e]

/-- **C14**, the remaining case: a dark with settings other than those of the science data, whatever they are, and science groups of at least two
frames.  The groups of the dark, continued past its end where necessary, are counted as if they were frames: science group `g` loses the mean over the dark
groups with numbers `g*(nframes+groupgap)` to `g*(nframes+groupgap)+nframes-1`, as far as there are such groups, and is not a number if there are
none. -/
theorem C14_any_dark (sci : Sci α) (drk : Ref α) (n : Nat) (r : List (Option α)) (dq : Nat)
    (hrect : Rect sci n) (hnf : 2 ≤ sci.nframes) (harr : drk.arr = .d3 r dq) (hlen : 2 ≤ r.length)
    (hle : drk.nframes ≤ sci.nframes ∧ drk.groupgap ≤ sci.groupgap)
    (hdiff : ¬ (sci.nframes = drk.nframes ∧ sci.groupgap = drk.groupgap)) :
    ∃ res, doCorrection sci drk = some res ∧ res.skipped = false ∧
      res.out.data = sci.data.map fun row => row.zipIdx.map fun p =>
        osub p.1 (xcTaken r sci.nframes sci.groupgap (r.length + appended sci drk) p.2) := by
  have hsn := rect_ngroups hrect
  obtain ⟨arr0, he, hz⟩ := extended_d3 sci drk r dq harr hlen
  set L := r.length + appended sci drk with hL
  have havg : averageArr (.d3 (fullRamp r (appended sci drk)) dq) sci.data.length sci.ngroups sci.nframes sci.groupgap =
      some (.d3 ((List.range n).map fun g => xcTaken r sci.nframes sci.groupgap L g) dq) := by
    simp only [averageArr, hsn, fullRamp]
    rw [xc_averageLoop (darkAt r) _ sci.nframes sci.groupgap hnf n 0]
    simp only [Nat.zero_add, Option.map_some]
    rfl
  have hs := subtractDark_eq sci (.d3 ((List.range n).map fun g => xcTaken r sci.nframes sci.groupgap L g) dq) dq n
    (fun _ => (List.range n).map fun g => xcTaken r sci.nframes sci.groupgap L g) rfl hrect.2.2 (fun _ _ => rfl) (by intro i _; simp)
  have hcorr : doCorrection sci drk = some ⟨false, { sci with
      data := sci.data.zipIdx.map (fun p => List.zipWith osub p.1 ((List.range n).map fun g => xcTaken r sci.nframes sci.groupgap L g)),
      pixeldq := sci.pixeldq ||| dq }, some (.d3 ((List.range n).map fun g => xcTaken r sci.nframes sci.groupgap L g) dq)⟩ := by
    unfold doCorrection
    rw [he]
    simp only [hz]
    rw [if_neg (by omega), if_neg hdiff, havg]
    simp only [hs]
    rfl
  refine ⟨_, hcorr, rfl, ?_⟩
  simp only
  refine List.ext_getElem (by simp) ?_
  intro i h1 h2
  simp only [List.getElem_map, List.getElem_zipIdx]
  have hi : i < sci.data.length := by simpa using h2
  have hrow := hrect.2.2 _ (List.getElem_mem hi)
  refine List.ext_getElem (by simp [hrow]) ?_
  intro g h3 h4
  simp

example : (doCorrection (⟨[[some 10, some 20]], [[0, 0]], 0, 4, 0, none⟩ : Sci ℚ) ⟨.d3 [some 1, some 2, some 3, some 4] 0, 4, 2, 0⟩).map
      (fun r => r.out.data) = some [[some (10 - 5/2), none]] ∧
    xcTaken [some (1 : ℚ), some 2, some 3, some 4] 4 0 4 0 = some (5/2) ∧ xcTaken [some (1 : ℚ), some 2, some 3, some 4] 4 0 4 1 = none := by
  decide +kernel

/-- **C18**, the remaining case: a segment of an exposure that does not begin at integration one, with a dark that has more integrations than the
segment and has to be averaged.  Nothing is subtracted at all. -/
theorem C18_nothing_subtracted (sci : Sci α) (drk : Ref α) (n : Nat) (rs : List (List (Option α))) (dq : List (List Nat)) (w : Nat) (s : Int)
    (hrect : Rect sci n) (hnf : 1 ≤ sci.nframes) (harr : drk.arr = .d4 rs dq)
    (hng : ∀ r ∈ rs, r.length = drk.ngroups) (hlen : 2 ≤ drk.ngroups) (hw : darkDq drk.arr = some w)
    (hdnf : drk.nframes = 1) (hdgap : drk.groupgap = 0) (hmis : ¬ (sci.nframes = 1 ∧ sci.groupgap = 0))
    (hstart : sci.intstart = some s) (hs1 : s ≠ 1) (hmore : sci.data.length < rs.length) :
    ∃ res, doCorrection sci drk = some res ∧ res.skipped = false ∧ res.out.data = sci.data := by
  have hsn := rect_ngroups hrect
  obtain ⟨arr0, he, hz⟩ := extended_d4 sci drk rs dq harr (by intro r hr; rw [hng r hr]; exact hlen)
  have hcov := appended_covers sci drk (by omega) (by omega)
  rw [hdnf, hdgap, hsn] at hcov
  have hcov' : totalFrames n sci.nframes sci.groupgap ≤ drk.ngroups + appended sci drk := by
    simpa [totalFrames] using hcov
  set avgOf : List (Option α) → List (Option α) := fun r =>
    (List.range n).map (fun g => some (darkGroupMean r sci.nframes sci.groupgap g)) with havgOf
  set zero : List (Option α) := List.replicate n (some 0) with hzero
  set av := (rs.take sci.data.length).map avgOf ++ List.replicate (rs.length - sci.data.length) zero with hav
  have havg : averageArr (.d4 (rs.map (fun r => fullRamp r (appended sci drk))) dq)
      sci.data.length sci.ngroups sci.nframes sci.groupgap = some (.d4 av dq) := by
    simp only [averageArr, List.length_map, if_pos hmore, hsn]
    rw [mapM_some_of_forall _ (fun l => (averageLoop l sci.nframes sci.groupgap n 0).getD [])]
    · simp only [Option.map_some, Option.some.injEq, DarkArr.d4.injEq, and_true, hav, hzero, List.append_cancel_right_eq]
      rw [← List.map_take, List.map_map]
      apply List.map_congr_left
      intro r hr
      have hr' := List.mem_of_mem_take hr
      simp only [Function.comp]
      rw [average_fullRamp r _ n _ _ hnf (by rw [hng r hr']; exact hcov')]
      rfl
    · intro l hl
      rw [← List.map_take] at hl
      simp only [List.mem_map] at hl
      obtain ⟨r, hr, rfl⟩ := hl
      have hr' := List.mem_of_mem_take hr
      rw [average_fullRamp r _ n _ _ hnf (by rw [hng r hr']; exact hcov')]
      rfl
  have hlast : av.getLast? = some zero := by
    obtain ⟨m, hm⟩ : ∃ m, rs.length - sci.data.length = m + 1 := ⟨rs.length - sci.data.length - 1, by omega⟩
    rw [hav, hm, List.replicate_succ', ← List.append_assoc, List.getLast?_concat]
  have hlenav : av.length = rs.length := by
    rw [hav]; simp; omega
  have hdq' : darkDq (.d4 av dq) = some w := by
    rw [harr] at hw
    simp only [darkDq] at hw ⊢
    rw [hlenav]; exact hw
  have hsub := subtractDark_eq sci (.d4 av dq) w n (fun _ => zero) hdq' hrect.2.2 (by
      intro i _
      simp only [darkForInt, hstart, Option.getD_some]
      rw [if_neg (fun h => hs1 h.2), hlast]) (by intro i _; simp [hzero])
  have hcorr : doCorrection sci drk = some ⟨false, { sci with
      data := sci.data.zipIdx.map (fun p => List.zipWith osub p.1 zero), pixeldq := sci.pixeldq ||| w }, some (.d4 av dq)⟩ := by
    unfold doCorrection
    rw [he]
    simp only [hz]
    rw [if_neg (by omega), if_neg (by omega), havg]
    simp only [hsub]
    rfl
  refine ⟨_, hcorr, rfl, ?_⟩
  simp only
  refine List.ext_getElem (by simp) ?_
  intro i h1 h2
  simp only [List.getElem_map, List.getElem_zipIdx]
  have hrow := hrect.2.2 _ (List.getElem_mem h2)
  refine List.ext_getElem (by simp [hzero, hrow]) ?_
  intro g h3 h4
  simp only [List.getElem_zipWith, hzero, List.getElem_replicate]
  cases sci.data[i][g] <;> simp [osub]

example : (doCorrection (⟨[[some 10, none]], [[0, 0]], 0, 2, 0, some 5⟩ : Sci ℚ)
    ⟨.d4 [[some 1, some 1], [some 3, some 3], [some 5, some 7]] [[0], [0], [0]], 2, 1, 0⟩).map (fun r => r.out.data) = some [[some 10, none]] := by
  decide +kernel

end

/-! ## C65 -/

section
open Verif.Linearity

variable {α : Type} [Field α] [LinearOrder α] [IsStrictOrderedRing α]

/-- The reads behind a resultant `v`: the curve predicted by the inverse polynomial, moved so that its mean is the resultant. -/
def xcReads (ic : List α) (f r m v : α) (reads : List Nat) : List α :=
  reads.map fun (k : Nat) => polyVal ic (f + r * ((k : α) - m)) +
    (v - (reads.map fun (k : Nat) => polyVal ic (f + r * ((k : α) - m))).sum / (reads.length : α))

theorem xc_sum_min (l : List α) (c : α) : (l.map fun x => min x c).sum ≤ l.sum ∧ ((l.map fun x => min x c).sum = l.sum ↔ ∀ x ∈ l, x ≤ c) := by
  induction l with
  | nil => simp
  | cons x l ih =>
    obtain ⟨h1, h2⟩ := ih
    simp only [List.map_cons, List.sum_cons, List.mem_cons, forall_eq_or_imp]
    have hx := min_le_left x c
    refine ⟨by linarith, fun h => ?_, fun h => ?_⟩
    · have h3 : min x c = x := by linarith
      exact ⟨by rw [← h3]; exact min_le_right x c, h2.1 (by linarith)⟩
    · rw [min_eq_left h.1, h2.2 h.2]

/-- **C65**, the cap: an unsaturated resultant of a pixel without forward solution is never raised, and it is kept exactly when none of the reads
behind it exceeds 1.2 times saturation. -/
theorem C65_kept_iff (sat : Nat) (pattern : List (List Nat)) (i n : Nat) (p : Px α) (f r m v s : α) (ic : List α) (reads : List Nat)
    (hf : firstLin sat p = some f) (hr : countRate sat pattern p = some r) (hm : meanRead ((pattern[0]?).getD []) = some m)
    (hic : p.icoeffs = ic.map some) (hicl : 2 ≤ ic.length) (hc : p.coeffs = benCoeffs n) (hn : 2 ≤ n)
    (hpat : pattern[i]? = some reads) (hne : reads ≠ []) (hv : p.data[i]? = some (some v)) (hcap : p.satval = some (some s))
    (hns : ((p.gdq[i]?).getD 0) &&& sat = 0) :
    ∃ u, finishResultant sat i p (adjustedReads sat pattern i p) = some u ∧ u ≤ v ∧
      (u = v ↔ ∀ x ∈ xcReads ic f r m v reads, x ≤ 6 / 5 * s) := by
  have hmean := C64_reads_average_to_resultant sat pattern i p f r m v ic reads hf hr hm hic hicl hpat hne hv
  have hadj : adjustedReads sat pattern i p = (xcReads ic f r m v reads).map some := by
    rw [adjustedReads_eq sat pattern i p f r m ic reads hf hr hm hic hicl hpat, Verif.Linearity.omean_map_some _ (by simpa using hne), hv]
    simp [xcReads, oadd, osub, Function.comp_def]
  have hxne : xcReads ic f r m v reads ≠ [] := by simpa [xcReads] using hne
  rw [hadj, Verif.Linearity.omean_map_some _ hxne, Option.some.injEq] at hmean
  have hlen : (0 : α) < ((xcReads ic f r m v reads).length : α) := Nat.cast_pos.2 (List.length_pos_of_ne_nil hxne)
  have hres : finishResultant sat i p (adjustedReads sat pattern i p) =
      some (((xcReads ic f r m v reads).map fun x => min x (6 / 5 * s)).sum / ((xcReads ic f r m v reads).length : α)) := by
    simp only [finishResultant, hns, ne_eq, not_true_eq_false, if_false, hadj, hc]
    have e1 : (((xcReads ic f r m v reads).map some).map (capRead p.satval)).map (applyPoly (benCoeffs n)) =
        ((xcReads ic f r m v reads).map fun x => min x (6 / 5 * s)).map some := by
      rw [List.map_map, List.map_map, List.map_map]
      refine List.map_congr_left fun x _ => ?_
      simp only [Function.comp, applyPoly_ben n hn, hcap, capRead, omul, omin]
    rw [e1, Verif.Linearity.omean_map_some _ (by simpa using hxne), List.length_map]
  obtain ⟨h1, h2⟩ := xc_sum_min (xcReads ic f r m v reads) (6 / 5 * s)
  refine ⟨_, hres, ?_, ?_⟩
  · exact (div_le_div_of_nonneg_right h1 hlen.le).trans_eq hmean
  · rw [← h2]
    conv_lhs => rhs; rw [← hmean]
    rw [div_left_inj' hlen.ne']

example : finishResultant 2 2 { exPx with satval := some (some 7) } (adjustedReads 2 exPattern 2 { exPx with satval := some (some 7) }) = some (1934/405) := by
  decide +kernel

theorem xc_polyVal_ben (n : Nat) (hn : 2 ≤ n) (x : α) : polyVal ((List.range n).map fun j => if j = 1 then (1 : α) else 0) x = x := by
  have h := applyPoly_ben n hn (some x)
  rw [benCoeffs_eq, applyPoly_some _ _ (by simpa using hn), Option.some.injEq] at h
  exact h

/-- **C65**, pixels unusable only in the inverse coefficients, for all of them: NO_LIN_CORR is set, yet every unsaturated resultant is replaced by the
average of the forward polynomial over reads spaced evenly about the resultant. -/
theorem C65_inverse_only_exact (sat linDq pdq nlc : Nat) (pattern : List (List Nat)) (i : Nat) (p : Px α) (f r m v : α) (raw : List (Option α))
    (c : List α) (reads : List Nat) (hlen : 2 ≤ raw.length) (hbad : NoSolution raw linDq nlc)
    (hprep : (prepare raw linDq pdq nlc).map Prod.fst = some p.icoeffs)
    (hf : firstLin sat p = some f) (hr : countRate sat pattern p = some r) (hm : meanRead ((pattern[0]?).getD []) = some m)
    (hc : p.coeffs = c.map some) (hcl : 2 ≤ c.length)
    (hpat : pattern[i]? = some reads) (hne : reads ≠ []) (hv : p.data[i]? = some (some v)) (hcap : p.satval = none)
    (hns : ((p.gdq[i]?).getD 0) &&& sat = 0) :
    (∃ q, (prepare raw linDq pdq nlc).map Prod.snd = some q ∧ ∀ b, nlc.testBit b = true → q.testBit b = true) ∧
    finishResultant sat i p (adjustedReads sat pattern i p) =
      some ((reads.map fun (k : Nat) => polyVal c (v + r * ((k : α) - (reads.map fun (k : Nat) => (k : α)).sum / (reads.length : α)))).sum /
        (reads.length : α)) := by
  obtain ⟨q, hq, hbits⟩ := prepare_bad raw linDq pdq nlc hlen hbad
  refine ⟨⟨q, by rw [hq]; rfl, fun b hb => by rw [hbits, hb]; simp⟩, ?_⟩
  have hic : p.icoeffs = ((List.range raw.length).map fun j => if j = 1 then (1 : α) else 0).map some := by
    rw [hq] at hprep
    simp only [Option.map_some, Option.some.injEq] at hprep
    rw [← hprep, benCoeffs_eq]
  have hL : (reads.length : α) ≠ 0 := Nat.cast_ne_zero.2 (List.length_pos_of_ne_nil hne).ne'
  have hsum : (reads.map fun (k : Nat) => f + r * ((k : α) - m)).sum =
      (reads.length : α) * (f - r * m) + r * (reads.map fun (k : Nat) => (k : α)).sum := by
    clear hne hL hpat
    induction reads with
    | nil => simp
    | cons k l ih =>
      simp only [List.map_cons, List.sum_cons, ih, List.length_cons, Nat.cast_add, Nat.cast_one]
      ring
  have hadj : adjustedReads sat pattern i p =
      (reads.map fun (k : Nat) => v + r * ((k : α) - (reads.map fun (k : Nat) => (k : α)).sum / (reads.length : α))).map some := by
    rw [adjustedReads_eq sat pattern i p f r m _ reads hf hr hm hic (by simpa using hlen) hpat, Verif.Linearity.omean_map_some _ (by simpa using hne), hv]
    rw [List.map_map, List.map_map]
    refine List.map_congr_left fun k _ => ?_
    simp only [Function.comp, xc_polyVal_ben _ hlen, hsum, List.length_map, oadd, osub, Option.getD_some, Option.some.injEq]
    field_simp
    ring
  simp only [finishResultant, hns, ne_eq, not_true_eq_false, if_false, hadj, hc]
  have e1 : ∀ l : List α, ((l.map some).map (capRead p.satval)).map (applyPoly (c.map some)) = (l.map (polyVal c)).map some := by
    intro l
    rw [List.map_map, List.map_map, List.map_map]
    refine List.map_congr_left fun x _ => ?_
    simp only [Function.comp, hcap, capRead, applyPoly_some c x hcl, polyVal]
  rw [e1, Verif.Linearity.omean_map_some _ (by simpa using hne)]
  simp [Function.comp_def]

/-- A pixel with inverse coefficients 0 and NaN and the forward polynomial `2 v`. -/
def xcInv : Px ℚ := { exPx with coeffs := [some 0, some 2], icoeffs := benCoeffs 2 }

example : NoSolution [some (0 : ℚ), none] 0 8 ∧ (prepare [some (0 : ℚ), none] 0 0 8).map Prod.fst = some xcInv.icoeffs ∧ firstLin 2 xcInv = some 2
    ∧ countRate 2 exPattern xcInv = some (8 / 3) ∧ xcInv.coeffs = [0, 2].map some ∧ exPattern[2]? = some [4, 5, 6] ∧ xcInv.data[2]? = some (some 8)
    ∧ finishResultant 2 2 xcInv (adjustedReads 2 exPattern 2 xcInv) = some 16 := by
  refine ⟨Or.inr (Or.inl (by decide +kernel)), ?_⟩
  decide +kernel

end

/-! ## C70 -/

section
open Verif Verif.Snowball

variable {α : Type} [Field α] [LinearOrder α]

/-- **C70**, exactly which samples the shower search ignores: those flagged with one of five combinations and nothing else. -/
theorem C70_ignored_iff (e : Env α) (hj : e.jump &&& e.dnu = 0) (hs : e.sat &&& e.dnu = 0) (w : Nat) (x : α) :
    nanInvalid e w (some x) = none ↔
      w = e.jump ||| e.dnu ∨ w = e.sat ||| e.dnu ∨ w = e.sat ∨ w = e.jump ∨ w = e.dnu := by
  have h1 : e.jump + e.dnu = e.jump ||| e.dnu := add_eq_or e.jump e.dnu hj
  have h2 : e.sat + e.dnu = e.sat ||| e.dnu := add_eq_or e.sat e.dnu hs
  simp only [nanInvalid, h1, h2]
  split
  · rename_i h
    exact ⟨fun _ => h, fun _ => rfl⟩
  · rename_i h
    exact ⟨fun hc => absurd hc (by simp), fun hc => absurd hc h⟩

/-- Any flag beyond the three makes an unusable sample count again. -/
theorem C70_further_flag_is_used (e : Env α) (hj : e.jump &&& e.dnu = 0) (hs : e.sat &&& e.dnu = 0) (w : Nat) (b : Nat) (hb : w.testBit b = true)
    (h1 : e.jump.testBit b = false) (h2 : e.sat.testBit b = false) (h3 : e.dnu.testBit b = false) (x : α) :
    nanInvalid e w (some x) = some x := by
  have h := (C70_ignored_iff e hj hs w x).not.2 (by
    rintro (rfl | rfl | rfl | rfl | rfl) <;> simp [h1, h2, h3] at hb)
  simp only [nanInvalid] at h ⊢
  split
  · rename_i hc
    exact absurd (if_pos hc) h
  · rfl

example : nanInvalid exEnv 17 (some 1) = some 1 := by decide +kernel

end

/-! ## C71 -/

section
open Verif.Dq Verif.Ols

variable {α : Type*} [Field α] [LinearOrder α] [IsStrictOrderedRing α]

theorem xc_keeps (fl : Flags) (cfg : Cfg α) (px : Pix α) (med : Option α) (ng : Nat) (i : Integ α) (dq0 : Nat) (h : Has dq0 fl.sat) :
    Has (fitInteg fl cfg px med ng i dq0).1.dq fl.sat := by
  rw [fitInteg_dq]
  have hm : ∀ a b, Has a fl.sat → Has (a ||| b) fl.sat := fun a b h => has_or_left.2 (Or.inl h)
  split_ifs
  · exact hm _ _ (hm _ _ (hm _ _ (hm _ _ h)))
  · exact hm _ _ (hm _ _ h)
  · exact hm _ _ (hm _ _ (hm _ _ h))
  · exact hm _ _ h
  · exact hm _ _ (hm _ _ h)
  · exact h

/-- **C71**, exactly when an integration without any clean group and without zero-frame substitute has no slope: when the pixel itself is unusable or
saturated, the first group is saturated, or all groups are unusable or saturated.  Otherwise slope 0 is reported without DO_NOT_USE. -/
theorem C71_exact (fl : Flags) (hf : OlsFlagsOk fl) (cfg : Cfg α) (ngroups : Nat) (hn : 0 < ngroups) (p : PixIn α)
    (hlen : ∀ x ∈ p.ints, x.2.1.length = ngroups) (j : Nat) (h : j < p.ints.length) (h' : j < (fitPixel fl cfg ngroups p).1.length)
    (hz : ¬ ZeroSub cfg.suppress1g p.ints[j].2.1 p.ints[j].2.2) (hall : ∀ i, ¬ GoodGroup fl.pers p.ints[j].2.1 i) :
    let r := (fitPixel fl cfg ngroups p).1[j]
    let lost := Has (entryDq fl p) fl.dnu ∨ Has (entryDq fl p) fl.sat ∨ Has (p.ints[j].2.1.getD 0 0) fl.sat ∨
      ∀ d ∈ p.ints[j].2.1, Has d fl.dnu ∨ Has d fl.sat
    (lost → r.slope = none) ∧ (¬ lost → r.slope = some 0 ∧ ¬ Has r.dq fl.dnu) := by
  intro r lost
  have hdq := ((C31_rateints_dq fl hf cfg ngroups hn p hlen).2 j h h').1
  rcases hx : p.ints[j] with ⟨d, g, z⟩
  have hlost : lost = (Has (entryDq fl p) fl.dnu ∨ Has (entryDq fl p) fl.sat ∨ Has (g.getD 0 0) fl.sat ∨
      ∀ d ∈ g, Has d fl.dnu ∨ Has d fl.sat) := by simp only [lost, hx]
  rw [hlost]
  rw [hx] at hz hall hdq
  have hgl : g.length = ngroups := by
    have := hlen p.ints[j] (List.getElem_mem h)
    rw [hx] at this; exact this
  set med := medianRate fl cfg ngroups (loadPixel fl cfg p) with hmed
  set i := loadInteg fl cfg.suppress1g d g z with hi
  set q := (fitInteg fl cfg p.px med ngroups i (metaDq fl p ||| statBits fl i.st)).1 with hq
  have e : r = (postInteg fl i q).1 := by
    simp only [r, fitPixel, pixelInts, loadPixel, List.getElem_map, hx]
    rfl
  have hg : i.gdq = g := (load_nosub fl cfg.suppress1g d g z hz).1
  have hs : (fitSegs fl g).segs = [] := by
    unfold fitSegs
    split
    · rfl
    · obtain ⟨-, h2⟩ := C27_segments_sound fl g
      rw [List.eq_nil_iff_forall_not_mem]
      intro s hs
      obtain ⟨-, -, h3, h4, -⟩ := h2 s hs
      rcases h4 with h4 | ⟨-, h4⟩
      · exact hall _ h4
      · exact hall _ (h3 (s.start + 1) (by omega) h4)
  have hqs : q.slope = if firstSat fl g then none else some 0 := by
    simp only [hq, fitInteg, hg, hs, List.map_nil, List.isEmpty_nil, if_true, combineInteg]
    split_ifs <;> rfl
  have hslope : r.slope = if hasB q.dq fl.dnu || hasB q.dq fl.sat then none else q.slope := by
    rw [e]; rfl
  have hmeta : metaDq fl p = entryDq fl p := rfl
  have hdnu : Has q.dq fl.dnu ↔ Has (entryDq fl p) fl.dnu ∨ DeadInteg fl cfg.suppress1g g z := by
    rw [hq, ← hgl, hmeta]
    exact integ_dnu fl hf cfg p.px med (entryDq fl p) cfg.suppress1g d g z
  have hqdq := fitInteg_dq fl cfg p.px med ngroups i (metaDq fl p ||| statBits fl i.st)
  rw [← hq] at hqdq
  have hfirst := load_firstSat fl cfg.suppress1g d g z
  have hfull := load_full fl cfg.suppress1g d g z
  rw [← hi, hg] at hfirst
  rw [← hi, hgl] at hfull
  have hsat : Has (entryDq fl p) fl.sat → Has q.dq fl.sat := by
    intro hh
    have hb : Has (metaDq fl p ||| statBits fl i.st) fl.sat := has_or_left.2 (Or.inl hh)
    rw [hq]
    exact xc_keeps fl cfg p.px med ngroups i _ hb
  constructor
  · intro hl
    have : Has q.dq fl.dnu ∨ Has q.dq fl.sat := by
      rcases hl with hl | hl | hl | hl
      · exact Or.inl (hdnu.2 (Or.inl hl))
      · exact Or.inr (hsat hl)
      · exact Or.inl (hdnu.2 (Or.inr ⟨hz, Or.inl hl⟩))
      · exact Or.inl (hdnu.2 (Or.inr ⟨hz, Or.inr hl⟩))
    rw [hslope, if_pos]
    rcases this with h | h
    · simp [hasB_iff.2 h]
    · simp [hasB_iff.2 h]
  · intro hl
    have h1 : ¬ Has (entryDq fl p) fl.dnu := fun hc => hl (Or.inl hc)
    have h2 : ¬ Has (entryDq fl p) fl.sat := fun hc => hl (Or.inr (Or.inl hc))
    have h3 : ¬ Has (g.getD 0 0) fl.sat := fun hc => hl (Or.inr (Or.inr (Or.inl hc)))
    have h4 : ¬ ∀ d ∈ g, Has d fl.dnu ∨ Has d fl.sat := fun hc => hl (Or.inr (Or.inr (Or.inr hc)))
    have hdead : ¬ DeadInteg fl cfg.suppress1g g z := by
      rintro ⟨-, hc | hc⟩
      · exact h3 hc
      · exact h4 hc
    have hnf : ¬ firstSat fl g = true := fun hc => h3 (hfirst.1 hc).2
    have hncnt : ¬ (ngroups : Int) = i.st.cntDnuSat := fun hc => h4 (hfull.1 hc).2
    have hnd : ¬ Has q.dq fl.dnu := by
      rw [hdnu]
      rintro (hc | hc)
      · exact h1 hc
      · exact hdead hc
    have hns : ¬ Has q.dq fl.sat := by
      rw [hqdq, if_neg hncnt, hg, if_neg hnf, has_or_left]
      rintro (hc | hc)
      · exact h2 hc
      · exact (statBits_not fl hf i.st).2 hc
    refine ⟨?_, fun hc => ?_⟩
    · rw [hslope, if_neg, hqs, if_neg hnf]
      rw [Bool.or_eq_true, hasB_iff, hasB_iff]
      rintro (hc | hc)
      · exact hnd hc
      · exact hns hc
    · rcases hdq.1 hc with hc | hc
      · exact h1 hc
      · exact hdead hc

example : (fitPixel exFlags exCfg 3 ⟨false, exPix, 0, [([some 1, some 40, some 70], [1, 4, 4], none), ([some 1, some 2, some 3], [1, 3, 1], none),
    ([some 1, some 2, some 3], [0, 0, 0], none)]⟩).1.map (fun r => r.slope) = [some 0, none, some (1 / 10)] := by decide +kernel

end

/-! ## C75 -/

section
open Verif.Cas22

variable {α : Type*} [Field α] [LinearOrder α]

theorem xc_maxStep_nan (f : Nat → Ext α) (l : List Nat) (k : Nat) : l.foldl (maxStep f) (k, none) = (k, none) := by
  induction l with
  | nil => rfl
  | cons x l ih =>
    rw [List.foldl_cons]
    have : maxStep f (k, none) x = (k, none) := by
      simp only [maxStep, gt]
      cases f x <;> rfl
    rw [this, ih]

/-- **C75**, the remaining case: if the statistic of the last single difference of a ramp is not a number, no jump is found in the ramp, however large
the other statistics are. -/
theorem C75_last_not_a_number (cfg : Cfg α) (p : Pix α) (r : Ramp) (hr : r.start < r.stop) (f : Fit α) (hf : fitRamp cfg p r = some f)
    (hlast : stat cfg p r f.slope (r.stop - 1) 1 = none) : detect cfg p r = none := by
  unfold detect
  split
  · simp only [hf]
    have : fitStatistic cfg p r f.slope = (r.stop - r.start - 1, none) := by
      rw [fitStatistic, if_neg (by omega), hlast, xc_maxStep_nan]
    rw [this]
    rfl
  · rfl

example :
    let t : Nat → ℚ := fun i => [1, 2, 3, 4, 8].getD i 9
    let p : Pix ℚ := ⟨t, t, fun _ => 1, fun i => [0, 30, 20, 10, -47].getD i 0, 2⟩
    (fitRamp (cas22Cfg true) p ⟨0, 4⟩).map (fun f => stat (cas22Cfg true) p ⟨0, 4⟩ f.slope 3 1) = some none := by decide +kernel

end

/-! ## C94 -/

section
open Verif.Dq Verif.Ols Verif.RampDq Verif.RampFit

variable {α : Type*} [Field α] [LinearOrder α] [IsStrictOrderedRing α]

/-- Two rates that agree in everything but the read-noise variance. -/
def XcButNoise (x y : Rate α) : Prop := y.slope = x.slope ∧ y.varP = x.varP ∧ y.varErr = x.varErr ∧ y.dq = x.dq

/-- Two results of a pixel that agree, integration by integration and for the exposure, in everything but the read-noise variance. -/
def XcPixel (x y : PixOut α) : Prop :=
  y.1.length = x.1.length ∧ (∀ (k : Nat) (u v : Rate α), x.1[k]? = some u → y.1[k]? = some v → XcButNoise u v) ∧ XcButNoise x.2 y.2

theorem xc_expected (fl : Flags) (cfg : Cfg α) (nframes ngroups : Nat) (a : Bool) (p : RPix α)
    (ints : List (List (Option α) × List Nat × Option (Option α))) (orig : List (List Nat)) (ho : orig.length = ints.length) :
    XcPixel (rfExpected fl cfg nframes ngroups false p ints orig) (rfExpected fl cfg nframes ngroups a p ints orig) := by
  have e0 : rfExpected fl cfg nframes ngroups false p ints orig = fitPixel fl cfg ngroups (rfPixIn cfg.sqrt nframes p ints) := by
    rw [rfExpected, if_neg (by simp)]
  have hints : (rfPixIn cfg.sqrt nframes p ints).ints = ints := by unfold rfPixIn; cases p.gain <;> rfl
  rw [e0, rfExpected]
  split
  · obtain ⟨h1, h2, h3, h4, h5, h6, -⟩ := C87_only_read_noise fl cfg ngroups (rfPixIn cfg.sqrt nframes p ints) orig (by rw [hints, ho])
    refine ⟨h1, fun k u v hu hv => ?_, h3, h4, h5, h6⟩
    obtain ⟨g1, g2, g3, g4, -⟩ := h2 k u v hu hv
    exact ⟨g1, g2, g3, g4⟩
  · refine ⟨rfl, fun k u v hu hv => ?_, rfl, rfl, rfl, rfl⟩
    rw [hu] at hv
    obtain rfl := Option.some.inj hv
    exact ⟨rfl, rfl, rfl, rfl⟩

theorem xc_outcome (fl : Flags) (nframes : Nat) (rows : List (List (RPix α))) (P : Prop) [Decidable P] (cfg : Cfg α) (m : Nat)
    (i : RPix α → List (List (Option α) × List Nat × Option (Option α))) (o : RPix α → List (List Nat))
    (hio : ∀ p, (o p).length = (i p).length) (a : Bool) :
    let x : Option (List (List (PixOut α))) := if P then none else some (rows.map fun row => row.map fun p =>
      rfExpected fl cfg nframes m false p (i p) (o p))
    let y : Option (List (List (PixOut α))) := if P then none else some (rows.map fun row => row.map fun p =>
      rfExpected fl cfg nframes m a p (i p) (o p))
    (x = none ↔ y = none) ∧ ∀ u v, x = some u → y = some v → ∀ r c, (mgAt u r c = none ↔ mgAt v r c = none) ∧
      ∀ s t, mgAt u r c = some s → mgAt v r c = some t → XcPixel s t := by
  intro x y
  by_cases h : P
  · simp only [x, y, if_pos h]
    exact ⟨by simp, fun u v hu => by simp at hu⟩
  · simp only [x, y, if_neg h]
    refine ⟨by simp, fun u v hu hv r c => ?_⟩
    obtain rfl := Option.some.inj hu
    obtain rfl := Option.some.inj hv
    have hat : ∀ f : RPix α → PixOut α, mgAt (rows.map fun row => row.map f) r c = (mgAt rows r c).map f := by
      intro f
      unfold mgAt
      rw [List.getElem?_map]
      cases rows[r]? with
      | none => rfl
      | some row => simp
    rw [hat, hat]
    refine ⟨by simp, fun s t hs ht => ?_⟩
    obtain ⟨p, hp, rfl⟩ := Option.map_eq_some_iff.1 hs
    rw [hp] at ht
    obtain rfl := Option.some.inj ht
    exact xc_expected fl cfg nframes m a p (i p) (o p) (hio p)

/-- **C94**, also with charge loss.  A request that is not fitted by the likelihood algorithm and a request for OLS_C have results for the same
exposures, and every pixel has the same slopes, Poisson variances, errors and DQ, per integration and for the exposure.  Only read-noise
variances can differ, and only with charge loss (`C94_fallback_partial`, `C94_fallback_ignores_charge_loss`). -/
theorem C94_fallback_but_read_noise {γ : Type*} (fl : Flags) (b : Nat) (hb : fl.jump = 2 ^ b) (hdj : ¬ Has fl.dnu fl.jump)
    (hds : ¬ Has fl.dnu fl.sat) (hsj : ¬ Has fl.jump fl.sat) (hdc : ¬ Has fl.dnu fl.chargeloss)
    (cfg : Cfg α) (lik : List (List (RPix α)) → γ) (miri : Bool) (nframes ngroups : Nat)
    (algorithm algorithm' : List Char) (ha : ¬ (RfLikely algorithm ∧ 4 ≤ ngroups)) (ha' : RfOlsC algorithm')
    (suppress : Bool) (maxCores : List Char) (ncpu : Nat) (rows : List (List (RPix α)))
    (hshape : ∀ row ∈ rows, ∀ p ∈ row, ∀ e ∈ p.ints, e.1.length = ngroups ∧ e.2.1.length = ngroups)
    (hsl : 0 < Slicing.computeNumCores maxCores rows.length ncpu) :
    ∃ x y : Option (List (List (PixOut α))),
      (rampFit fl cfg lik miri nframes ngroups algorithm suppress maxCores ncpu rows).1 = .ols x ∧
      (rampFit fl cfg lik miri nframes ngroups algorithm' suppress maxCores ncpu rows).1 = .ols y ∧
      (x = none ↔ y = none) ∧ ∀ u v, x = some u → y = some v → ∀ r c, (mgAt u r c = none ↔ mgAt v r c = none) ∧
        ∀ s t, mgAt u r c = some s → mgAt v r c = some t → XcPixel s t := by
  have hn : ¬ RfLikely algorithm' := by
    intro h; rw [RfOlsC] at ha'; rw [RfLikely, ha'] at h; exact absurd h (by decide)
  by_cases hols : RfOlsC algorithm
  · obtain ⟨x, hx⟩ := (C94_selection fl cfg lik miri nframes ngroups algorithm suppress maxCores ncpu rows).2 ha
    have hsame : (rampFit fl cfg lik miri nframes ngroups algorithm' suppress maxCores ncpu rows).1 = .ols x := by
      rw [← hx]
      have hk : keepsOrig fl algorithm' rows = keepsOrig fl algorithm rows := by
        rw [Bool.eq_iff_iff, rf_keeps, rf_keeps]; simp [hols, ha']
      have hu : usesLikely algorithm ngroups = false := by rw [← Bool.not_eq_true, rf_uses]; exact ha
      have hu' : usesLikely algorithm' ngroups = false := by rw [← Bool.not_eq_true, rf_uses]; exact fun h => hn h.1
      simp only [rampFit, hk, hu, hu']
    refine ⟨x, x, hx, hsame, Iff.rfl, fun u v hu hv r c => ?_⟩
    rw [hu] at hv
    obtain rfl := Option.some.inj hv
    refine ⟨Iff.rfl, fun s t hs ht => ?_⟩
    rw [hs] at ht
    obtain rfl := Option.some.inj ht
    refine ⟨rfl, fun k u v hu hv => ?_, rfl, rfl, rfl, rfl⟩
    rw [hu] at hv
    obtain rfl := Option.some.inj hv
    exact ⟨rfl, rfl, rfl, rfl⟩
  · by_cases hm : miri = true ∧ 1 < ngroups
    · obtain ⟨rfl, hng⟩ := hm
      obtain ⟨k, hk⟩ := rg_lead fl.dnu (rfPlanes fl suppress ngroups rows)
      have h1 := C95_miri_exact fl b hb hdj hsj hdc cfg lik nframes ngroups hng algorithm ha suppress maxCores ncpu rows hshape hsl k hk _ rfl
      have h2 := C95_miri_exact fl b hb hdj hsj hdc cfg lik nframes ngroups hng algorithm' (fun h => hn h.1) suppress maxCores ncpu rows
        hshape hsl k hk _ rfl
      simp only [hols, ha', decide_false, decide_true] at h1 h2
      set m := keptCount fl.dnu (rfPlanes fl suppress ngroups rows) k
      by_cases hm2 : m < 2
      · rw [if_pos hm2] at h1 h2
        exact ⟨_, _, h1, h2, Iff.rfl, fun u v hu => by simp at hu⟩
      · rw [if_neg hm2] at h1 h2
        exact ⟨_, _, h1, h2, xc_outcome fl nframes rows _ _ m (fun p => rfCut fl.jump k m (rfInts fl suppress p))
          (fun p => p.ints.map fun e => (e.2.1.drop k).take m) (fun p => by simp [rfCut, rfInts]) true⟩
    · have hm' : miri = false ∨ ngroups ≤ 1 := by
        by_cases h : miri = true
        · exact Or.inr (by by_contra hc; exact hm ⟨h, by omega⟩)
        · exact Or.inl (by simpa using h)
      have h1 := C95_each_pixel_exact fl hds hdc cfg lik miri nframes ngroups hm' algorithm ha suppress maxCores ncpu rows hsl
      have h2 := C95_each_pixel_exact fl hds hdc cfg lik miri nframes ngroups hm' algorithm' (fun h => hn h.1) suppress maxCores ncpu rows hsl
      simp only [hols, ha', decide_false, decide_true] at h1 h2
      exact ⟨_, _, h1, h2, xc_outcome fl nframes rows _ _ ngroups (fun p => rfInts fl (suppress && decide (ngroups ≠ 1)) p)
        (fun p => p.ints.map fun e => e.2.1) (fun p => by simp [rfInts]) true⟩

example : ¬ (RfLikely "LIKELY".toList ∧ 4 ≤ 3) ∧ RfOlsC "ols_c".toList ∧ RfLost exFlags rfPixelA ∧ ¬ Has exFlags.dnu exFlags.jump ∧
    ¬ Has exFlags.jump exFlags.sat ∧ exFlags.jump = 2 ^ 2 := by
  decide +kernel

end

/-! ## C72 -/

section
open Verif.Ols
variable {α : Type} [Field α] [LinearOrder α] [IsStrictOrderedRing α]

/-- **C72**, exactly when it holds: the zero frame stands in by the listed rule unless there is a group that can be fitted, no group is without any
flag, and a zero frame could be used.  In these ramps (some groups with PERSISTENCE and nothing else) it stands in although it should not. -/
theorem C72_rule_iff (fl : Flags) (su : Bool) (d : List (Option α)) (g : List Nat) (z : Option (Option α)) :
    ((loadInteg fl su d g z).isZframe = true ↔
        (su = false ∧ ¬ (∃ k, GoodGroup fl.pers g k) ∧ ∃ v, z = some v ∧ v ≠ some 0)) ↔
      ¬ (su = false ∧ (∃ k, GoodGroup fl.pers g k) ∧ (∀ d ∈ g, d ≠ 0) ∧ ∃ v, z = some v ∧ v ≠ some 0) := by
  have hiff : (loadInteg fl su d g z).isZframe = true ↔ ZeroSub su g z := by
    by_cases h : ZeroSub su g z
    · exact iff_of_true (load_sub fl su d g z h).2.2.2 h
    · rw [(load_nosub fl su d g z h).2.2]
      simp [h]
  have hz : ¬ (∃ k, GoodGroup fl.pers g k) → ∀ d ∈ g, d ≠ 0 := by
    rintro h d hd rfl
    obtain ⟨k, hk, e⟩ := List.getElem_of_mem hd
    refine h ⟨k, hk, fun b hb => ?_⟩
    rw [e] at hb
    simp at hb
  rw [hiff, ZeroSub]
  generalize (∃ v, z = some v ∧ v ≠ some 0) = P
  generalize (∀ d ∈ g, d ≠ 0) = Q at hz ⊢
  generalize (∃ k, GoodGroup fl.pers g k) = R at hz ⊢
  by_cases h1 : su = false <;> by_cases h2 : P <;> by_cases h3 : R <;> by_cases h4 : Q <;> simp_all

-- a ramp with PERSISTENCE only, where the rule fails, and one with a saturated group, where it holds
example : (∃ k, GoodGroup exFlags.pers [16, 16, 16] k) ∧ (loadInteg exFlags false [some (10 : ℚ), some 13, some 16] [16, 16, 16] (some (some 1))).isZframe = true
    ∧ ¬ (∃ k, GoodGroup exFlags.pers [2, 2] k) ∧ (loadInteg exFlags false [some (10 : ℚ), some 13] [2, 2] (some (some 1))).isZframe = true := by
  refine ⟨⟨0, by decide, fun b hb => ?_⟩, by decide +kernel, ?_, by decide +kernel⟩
  · simpa [exFlags] using hb
  · rintro ⟨k, hk, h⟩
    have : k = 0 ∨ k = 1 := by simp at hk; omega
    rcases this with rfl | rfl <;> exact absurd (h 1 (by simp; decide)) (by decide)

end

end Verif.Thm
