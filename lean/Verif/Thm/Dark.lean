import Verif.Proof.Dark
import Mathlib.Algebra.Field.Rat

/-!
# Dark subtraction: properties C14-C18 and C63
-/

set_option linter.unusedSectionVars false

namespace Verif.Thm

open Verif.Dark

variable {α : Type} [Field α]

/-! ## Specification vocabulary -/

/-- Specification: value of dark read `idx` of the ramp `r`.  Inside the
reference it is the stored value with NaN read as zero; past its end it continues
the last difference linearly (zero if that difference is not a number). -/
def darkAt (r : List (Option α)) (idx : Nat) : α :=
  if idx < r.length then ((r[idx]?).getD none).getD 0
  else
    match (r[r.length - 1]?).getD none, (r[r.length - 2]?).getD none with
    | some l, some p => l + ((idx - r.length + 1 : Nat) : α) * (l - p)
    | _, _ => 0

/-- Specification: mean over the `nframes` dark reads that went into science
group `g`. -/
def darkGroupMean (r : List (Option α)) (nframes groupgap g : Nat) : α :=
  ((List.range nframes).map (fun k => darkAt r (g * (nframes + groupgap) + k))).sum / (nframes : α)

/-- Specification: subtract the number `f g` from group `g`; NaN stays NaN. -/
def subtractGroups (row : List (Option α)) (f : Nat → α) : List (Option α) :=
  row.zipIdx.map (fun p => p.1.map (fun x => x - f p.2))

/-- The science array is a rectangle with at least one integration and group. -/
def Rect (sci : Sci α) (ngroups : Nat) : Prop :=
  sci.data ≠ [] ∧ 1 ≤ ngroups ∧ ∀ row ∈ sci.data, row.length = ngroups

/-! ## Auxiliary lemmas -/

theorem osub_some (x : Option α) (a : α) : osub x (some a) = x.map (fun y => y - a) := by
  cases x <;> rfl

theorem rect_ngroups {sci : Sci α} {n : Nat} (h : Rect sci n) : sci.ngroups = n := by
  obtain ⟨h1, _, h3⟩ := h
  unfold Sci.ngroups
  cases hd : sci.data with
  | nil => exact absurd hd h1
  | cons a l => simpa using h3 a (by simp [hd])

theorem zeroed_stored (r : List (Option α)) :
    r.map nanToZero = (List.range r.length).map (fun i => some (darkAt r i)) := by
  apply List.ext_getElem
  · simp
  · intro i h1 h2
    have : i < r.length := by simpa using h1
    simp [nanToZero, darkAt, this]

theorem zeroed_extended (r e : List (Option α)) (k : Nat) (h : extrapolateInt r k = some e) :
    e.map nanToZero = (List.range (r.length + k)).map (fun i => some (darkAt r i)) := by
  unfold extrapolateInt at h
  split at h
  · simp at h
  · simp only [Option.some.injEq] at h
    subst h
    apply List.ext_getElem
    · simp
    · intro i h1 h2
      have hi : i < r.length + k := by simpa using h2
      rcases Nat.lt_or_ge i r.length with hlt | hge
      · simp [nanToZero, darkAt, hlt]
      · simp only [List.map_append, List.map_map, List.getElem_map, List.getElem_range]
        rw [List.getElem_append_right (by simpa using hge)]
        simp only [List.getElem_map, List.getElem_range, List.length_map, Function.comp]
        have hnl : ¬ i < r.length := by omega
        unfold darkAt
        rw [if_neg hnl]
        cases (r[r.length - 1]?).getD none with
        | none => simp [osub, nanToZero]
        | some l =>
          cases (r[r.length - 2]?).getD none with
          | none => simp [osub, nanToZero]
          | some p => simp [osub, nanToZero]; ring

theorem extrapolateInt_isSome (r : List (Option α)) (k : Nat) (h : 2 ≤ r.length) :
    ∃ e, extrapolateInt r k = some e := by
  unfold extrapolateInt
  rw [if_neg (by omega)]
  exact ⟨_, rfl⟩

/-- A ramp of the dark after extrapolation and NaN replacement. -/
def fullRamp (r : List (Option α)) (k : Nat) : List (Option α) :=
  (List.range (r.length + k)).map (fun i => some (darkAt r i))

/-- Number of groups appended by `do_correction_data`. -/
def appended (sci : Sci α) (drk : Ref α) : Nat :=
  let st := totalFrames sci.ngroups sci.nframes sci.groupgap
  let dt := totalFrames drk.ngroups drk.nframes drk.groupgap
  if st > dt then groupsToExtrapolate st dt drk.nframes drk.groupgap else 0

theorem extended_d3 (sci : Sci α) (drk : Ref α) (r : List (Option α)) (dq : Nat)
    (harr : drk.arr = .d3 r dq) (hlen : 2 ≤ r.length) :
    ∃ arr0, extended sci drk = some arr0 ∧
      zeroNaNs arr0 = .d3 (fullRamp r (appended sci drk)) dq := by
  simp only [extended, appended]
  split
  · rw [harr]
    obtain ⟨e, he⟩ := extrapolateInt_isSome r
      (groupsToExtrapolate (totalFrames sci.ngroups sci.nframes sci.groupgap)
        (totalFrames drk.ngroups drk.nframes drk.groupgap) drk.nframes drk.groupgap) hlen
    refine ⟨.d3 e dq, by simp [extrapolateArr, he], ?_⟩
    simp [zeroNaNs, fullRamp, zeroed_extended r e _ he]
  · exact ⟨.d3 r dq, by simp [harr], by simp [zeroNaNs, fullRamp, zeroed_stored]⟩

theorem extended_d4 (sci : Sci α) (drk : Ref α) (rs : List (List (Option α)))
    (dq : List (List Nat)) (harr : drk.arr = .d4 rs dq) (hlen : ∀ r ∈ rs, 2 ≤ r.length) :
    ∃ arr0, extended sci drk = some arr0 ∧
      zeroNaNs arr0 = .d4 (rs.map (fun r => fullRamp r (appended sci drk))) dq := by
  simp only [extended, appended]
  split
  · rw [harr]
    set k := groupsToExtrapolate (totalFrames sci.ngroups sci.nframes sci.groupgap)
        (totalFrames drk.ngroups drk.nframes drk.groupgap) drk.nframes drk.groupgap with hk
    have hm := mapM_some_of_forall (fun r => extrapolateInt r k)
      (fun r => (extrapolateInt r k).getD []) rs (by
        intro r hr
        obtain ⟨e, he⟩ := extrapolateInt_isSome r k (hlen r hr)
        simp [he])
    refine ⟨_, by rw [extrapolateArr, hm]; rfl, ?_⟩
    simp only [zeroNaNs, List.map_map]
    congr 1
    apply List.map_congr_left
    intro r hr
    obtain ⟨e, he⟩ := extrapolateInt_isSome r k (hlen r hr)
    simp [he, fullRamp, zeroed_extended r e k he]
  · exact ⟨.d4 rs dq, by simp [harr], by simp [zeroNaNs, fullRamp, zeroed_stored]⟩

/-- After extrapolation the dark spans the science exposure (in frames). -/
theorem appended_covers (sci : Sci α) (drk : Ref α) (hg : 1 ≤ drk.ngroups)
    (hnf : 1 ≤ drk.nframes) :
    totalFrames sci.ngroups sci.nframes sci.groupgap ≤
      totalFrames (drk.ngroups + appended sci drk) drk.nframes drk.groupgap := by
  rw [totalFrames_add _ _ _ _ hg]
  simp only [appended]
  split
  · exact groupsToExtrapolate_ge _ _ _ _ hnf
  · omega

theorem window_le (n nf gap L g : Nat) (h : totalFrames n nf gap ≤ L) (hg : g < n) :
    0 + g * (nf + gap) + nf ≤ L := by
  unfold totalFrames at h
  have h1 : g * nf ≤ (n - 1) * nf := Nat.mul_le_mul_right _ (by omega)
  have h2 : g * gap ≤ (n - 1) * gap := Nat.mul_le_mul_right _ (by omega)
  have h3 : n * nf = (n - 1) * nf + nf := by
    obtain ⟨m, rfl⟩ := Nat.exists_eq_add_of_le (show 1 ≤ n by omega)
    have : 1 + m - 1 = m := by omega
    rw [this]; ring
  have e : g * (nf + gap) = g * nf + g * gap := by ring
  omega

theorem average_fullRamp (r : List (Option α)) (k n nf gap : Nat) (hnf : 1 ≤ nf)
    (h : totalFrames n nf gap ≤ r.length + k) :
    averageLoop (fullRamp r k) nf gap n 0 =
      some ((List.range n).map (fun g => some (darkGroupMean r nf gap g))) := by
  unfold fullRamp
  rw [averageLoop_range (darkAt r) (r.length + k) nf gap hnf n 0
    (fun g hg => window_le n nf gap _ g h hg)]
  simp [darkGroupMean]

theorem zipIdx_map_subtract (sci : Sci α) (d : Nat → List (Option α)) (f : Nat → Nat → α) (n : Nat)
    (hrect : ∀ row ∈ sci.data, row.length = n)
    (hd : ∀ i, i < sci.data.length → ∃ L, n ≤ L ∧
      d i = (List.range L).map (fun g => some (f i g))) :
    sci.data.zipIdx.map (fun p => List.zipWith osub p.1 (d p.2)) =
      sci.data.zipIdx.map (fun p => subtractGroups p.1 (f p.2)) := by
  apply List.map_congr_left
  rintro ⟨row, i⟩ hp
  rw [List.mem_zipIdx_iff_getElem?] at hp
  have hi : i < sci.data.length := by
    by_contra hc
    rw [List.getElem?_eq_none (by simpa using hc)] at hp
    exact absurd hp (by simp)
  have hrow : row ∈ sci.data := List.mem_of_getElem? hp
  obtain ⟨L, hL, hdi⟩ := hd i hi
  simp only
  rw [hdi, zipWith_osub_range row (f i) L (by rw [hrect row hrow]; exact hL)]
  unfold subtractGroups
  simp [osub_some]

/-! ## C14 -/

/-- C14.  A frame-resolved dark (one frame per group, no gap - the format of the
reference files) is subtracted from science with any `nframes` and `groupgap`: in
every integration, science group `g` loses exactly the mean of the dark reads
`g*(nframes+groupgap) … g*(nframes+groupgap)+nframes-1`, including reads the dark
had to be extrapolated for.  The step always completes.

Partial with respect to the property as listed: it quantifies over every dark,
and `C14_coarse_dark_misaligned` shows that for a dark that itself averages
frames the claim is false for the code. -/
theorem C14_frame_average_aligned_partial (sci : Sci α) (drk : Ref α) (n : Nat)
    (r : List (Option α)) (dq : Nat)
    (hrect : Rect sci n) (hnf : 1 ≤ sci.nframes)
    (harr : drk.arr = .d3 r dq) (hng : drk.ngroups = r.length) (hlen : 2 ≤ r.length)
    (hdnf : drk.nframes = 1) (hdgap : drk.groupgap = 0) :
    ∃ res, doCorrection sci drk = some res ∧ res.skipped = false ∧
      res.out.data = sci.data.zipIdx.map
        (fun p => subtractGroups p.1 (darkGroupMean r sci.nframes sci.groupgap)) := by
  have hsn := rect_ngroups hrect
  obtain ⟨arr0, he, hz⟩ := extended_d3 sci drk r dq harr hlen
  have hcov := appended_covers sci drk (by omega) (by omega)
  rw [hdnf, hdgap, hng, hsn] at hcov
  have hcov' : totalFrames n sci.nframes sci.groupgap ≤ r.length + appended sci drk := by
    simpa [totalFrames] using hcov
  unfold doCorrection
  rw [he]
  simp only [hz]
  rw [if_neg (by omega)]
  split
  · rename_i hm
    have hs := subtractDark_eq sci (.d3 (fullRamp r (appended sci drk)) dq) dq n
      (fun _ => fullRamp r (appended sci drk)) rfl hrect.2.2 (fun _ _ => rfl) (by
        intro i _
        have : n ≤ totalFrames n sci.nframes sci.groupgap := by
          unfold totalFrames
          have : n * 1 ≤ n * sci.nframes := Nat.mul_le_mul_left _ hnf
          omega
        simp [fullRamp]; omega)
    rw [hs]
    refine ⟨_, rfl, rfl, ?_⟩
    simp only
    rw [zipIdx_map_subtract sci (fun _ => fullRamp r (appended sci drk)) (fun _ => darkAt r) n hrect.2.2]
    · have h1 : sci.nframes = 1 := by omega
      have h2 : sci.groupgap = 0 := by omega
      have hf : darkGroupMean r 1 0 = darkAt r := by funext g; simp [darkGroupMean]
      rw [h1, h2, hf]
    · intro i _
      refine ⟨r.length + appended sci drk, ?_, rfl⟩
      have : n ≤ totalFrames n sci.nframes sci.groupgap := by
        unfold totalFrames
        have : n * 1 ≤ n * sci.nframes := Nat.mul_le_mul_left _ hnf
        omega
      omega
  · have havg : averageArr (.d3 (fullRamp r (appended sci drk)) dq) sci.data.length sci.ngroups
        sci.nframes sci.groupgap =
        some (.d3 ((List.range n).map
          (fun g => some (darkGroupMean r sci.nframes sci.groupgap g))) dq) := by
      simp [averageArr, hsn, average_fullRamp r _ n _ _ hnf hcov']
    rw [havg]
    simp only
    have hs := subtractDark_eq sci (.d3 ((List.range n).map
          (fun g => some (darkGroupMean r sci.nframes sci.groupgap g))) dq) dq n
      (fun _ => (List.range n).map
          (fun g => some (darkGroupMean r sci.nframes sci.groupgap g))) rfl hrect.2.2
          (fun _ _ => rfl) (by intro i _; simp)
    rw [hs]
    refine ⟨_, rfl, rfl, ?_⟩
    simp only
    rw [zipIdx_map_subtract sci (fun _ => (List.range n).map
          (fun g => some (darkGroupMean r sci.nframes sci.groupgap g)))
          (fun _ => darkGroupMean r sci.nframes sci.groupgap) n hrect.2.2]
    intro i _
    exact ⟨n, le_refl n, rfl⟩

/-- Example science pixel: one integration, two groups of two frames, gap one. -/
def exSci : Sci ℚ :=
  { data := [[some 10, some 20]], groupdq := [[0, 0]], pixeldq := 1, nframes := 2, groupgap := 1,
    intstart := none }

/-- Example frame-resolved dark: four reads, one NaN. -/
def exDark : Ref ℚ :=
  { arr := .d3 [some 1, none, some 3, some 5] 4, ngroups := 4, nframes := 1, groupgap := 0 }

example : Rect exSci 2 ∧ 1 ≤ exSci.nframes ∧ exDark.nframes = 1 ∧ exDark.groupgap = 0 := by
  refine ⟨⟨by simp [exSci], by decide, by simp [exSci]⟩, by decide, rfl, rfl⟩

example : (doCorrection exSci exDark).map (fun r => r.out.data) =
    some [[some (10 - 1/2), some (20 - 6)]] := by decide +kernel

/-- The listed C14 is false for a dark that averages frames itself: with two
frames per dark group and four per science group the second science group loses
the mean of no dark group at all, and becomes NaN. -/
theorem C14_coarse_dark_misaligned :
    (doCorrection (⟨[[some 10, some 20]], [[0, 0]], 0, 4, 0, none⟩ : Sci ℚ)
      ⟨.d3 [some 1, some 2, some 3, some 4] 0, 4, 2, 0⟩).map (fun r => (r.skipped, r.out.data)) =
      some (false, [[some (10 - 5/2), none]]) := by decide +kernel

/-! ## C15 -/

/-- C15 (coverage).  Whatever the group counts, frames per group and gaps, after
appending the computed number of groups the dark spans at least as many frames
as the science exposure; it appends at most one group more than necessary; and
nothing is appended when the dark is long enough. -/
theorem C15_extrapolation_count (sg snf sgap dg dnf dgap : Nat) (hdg : 1 ≤ dg) (hdnf : 1 ≤ dnf)
    (hshort : totalFrames dg dnf dgap < totalFrames sg snf sgap) :
    let k := groupsToExtrapolate (totalFrames sg snf sgap) (totalFrames dg dnf dgap) dnf dgap
    totalFrames sg snf sgap ≤ totalFrames (dg + k) dnf dgap ∧
      totalFrames (dg + (k - 2)) dnf dgap < totalFrames sg snf sgap ∧
      (dgap = 0 → totalFrames (dg + (k - 1)) dnf dgap < totalFrames sg snf sgap) := by
  intro k
  refine ⟨?_, ?_, ?_⟩
  · rw [totalFrames_add _ _ _ _ hdg]
    exact groupsToExtrapolate_ge _ _ _ _ hdnf
  · rw [totalFrames_add _ _ _ _ hdg]
    exact groupsToExtrapolate_lt _ _ _ _ hdnf hshort
  · intro h0
    rw [totalFrames_add _ _ _ _ hdg]
    have hk : k = groupsToExtrapolate (totalFrames sg snf sgap) (totalFrames dg dnf dgap)
      dnf dgap := rfl
    clear_value k
    generalize totalFrames sg snf sgap = st at *
    generalize totalFrames dg dnf dgap = dt at *
    subst h0
    unfold groupsToExtrapolate at hk
    simp only [Nat.add_zero] at hk ⊢
    have hd := Nat.div_add_mod ((st - dt) + (dnf - 1)) dnf
    rw [← hk] at hd
    rcases Nat.eq_zero_or_pos k with h | h
    · subst h; simpa using hshort
    · obtain ⟨p, rfl⟩ := Nat.exists_eq_add_of_le h
      have e1 : 1 + p - 1 = p := by omega
      have e2 : dnf * (1 + p) = p * dnf + dnf := by ring
      rw [e1]; rw [e2] at hd
      omega

/-- C15 (values).  The dark actually used after extrapolation keeps every stored
group, and appended group `j` (counted from 0) is the last stored group plus
`j+1` times the last stored difference. -/
theorem C15_extrapolation_linear (r : List (Option α)) (k : Nat) (p l : α)
    (hlen : 2 ≤ r.length) (hl : r[r.length - 1]? = some (some l))
    (hp : r[r.length - 2]? = some (some p)) :
    ∃ e, extrapolateInt r k = some e ∧ e.length = r.length + k ∧
      (∀ i, i < r.length → e[i]? = r[i]?) ∧
      (∀ j, j < k → e[r.length + j]? = some (some (l + ((j : α) + 1) * (l - p)))) := by
  unfold extrapolateInt
  rw [if_neg (by omega)]
  refine ⟨_, rfl, by simp, ?_, ?_⟩
  · intro i hi
    simp [List.getElem?_append, hi]
  · intro j hj
    simp [hj, hl, hp, osub]
    ring

example : totalFrames 4 1 0 < totalFrames 3 2 1 := by decide
/-- With a gap in the dark one group more than necessary is appended. -/
theorem C15_one_extra_group :
    groupsToExtrapolate (totalFrames 2 1 1) (totalFrames 1 1 1) 1 1 = 2 ∧
      totalFrames (1 + 1) 1 1 = totalFrames 2 1 1 := by decide

/-! ## C16 -/

/-- C16.  A dark that averages more frames per group, or has a larger gap, than
the science data is never subtracted: whenever the step returns, it reports
SKIPPED, gives back the science data, group DQ and pixel DQ unchanged, and no
averaged dark; and it does return for every dark of two or more groups. -/
theorem C16_incompatible_skipped (sci : Sci α) (drk : Ref α)
    (h : sci.nframes < drk.nframes ∨ sci.groupgap < drk.groupgap) :
    (∀ res, doCorrection sci drk = some res →
      res.skipped = true ∧ res.out = sci ∧ res.averaged = none) ∧
    ((∀ r dq, drk.arr = .d3 r dq → 2 ≤ r.length) →
      (∀ rs dq, drk.arr = .d4 rs dq → ∀ r ∈ rs, 2 ≤ r.length) →
      doCorrection sci drk = some ⟨true, sci, none⟩) := by
  have hc : drk.nframes > sci.nframes ∨ drk.groupgap > sci.groupgap := h
  constructor
  · intro res hres
    unfold doCorrection at hres
    cases he : extended sci drk with
    | none => simp [he] at hres
    | some a =>
      simp only [he, if_pos hc, Option.some.injEq] at hres
      subst hres
      exact ⟨rfl, rfl, rfl⟩
  · intro h3 h4
    have : ∃ a, extended sci drk = some a := by
      cases harr : drk.arr with
      | d3 r dq =>
        obtain ⟨a, ha, _⟩ := extended_d3 sci drk r dq harr (h3 r dq harr)
        exact ⟨a, ha⟩
      | d4 rs dq =>
        obtain ⟨a, ha, _⟩ := extended_d4 sci drk rs dq harr (h4 rs dq harr)
        exact ⟨a, ha⟩
    obtain ⟨a, ha⟩ := this
    simp only [doCorrection, ha, if_pos hc]

example : exSci.nframes < (3 : Nat) := by decide
example : (doCorrection exSci { exDark with nframes := 3 }).map
    (fun r => (r.skipped, r.out.data, r.out.pixeldq)) =
      some (true, exSci.data, exSci.pixeldq) := by decide +kernel

/-! ## C17 -/

/-- Conversely compatible settings are never skipped. -/
theorem C16_compatible_not_skipped (sci : Sci α) (drk : Ref α) (res : Result α)
    (h1 : drk.nframes ≤ sci.nframes) (h2 : drk.groupgap ≤ sci.groupgap)
    (hres : doCorrection sci drk = some res) : res.skipped = false := by
  unfold doCorrection at hres
  cases he : extended sci drk with
  | none => simp [he] at hres
  | some a =>
    simp only [he] at hres
    rw [if_neg (by omega)] at hres
    split at hres
    · simp only [Option.map_eq_some_iff] at hres
      obtain ⟨o, _, rfl⟩ := hres
      rfl
    · split at hres
      · simp at hres
      · simp only [Option.map_eq_some_iff] at hres
        obtain ⟨o, _, rfl⟩ := hres
        rfl

theorem zipWith_osub_isSome (row d : List (Option α)) (hd : ∀ x ∈ d, x.isSome)
    (hlen : row.length ≤ d.length) :
    (List.zipWith osub row d).map Option.isSome = row.map Option.isSome := by
  induction row generalizing d with
  | nil => simp
  | cons a row ih =>
    cases d with
    | nil => simp at hlen
    | cons b d =>
      have hb := hd b (by simp)
      obtain ⟨v, rfl⟩ := Option.isSome_iff_exists.mp hb
      simp only [List.zipWith_cons_cons, List.map_cons]
      rw [ih d (fun x hx => hd x (by simp [hx])) (by simpa using hlen), osub_some]
      simp

theorem darkForInt_zeroed (a : DarkArr α) (s : Int) (i : Nat) (d : List (Option α))
    (h : darkForInt (zeroNaNs a) s i = some d) : ∀ x ∈ d, x.isSome := by
  cases a with
  | d3 r dq =>
    simp [darkForInt, zeroNaNs] at h
    subst h
    exact getElem?_nanToZero_isSome r
  | d4 rs dq =>
    have : d ∈ rs.map (fun r => r.map nanToZero) := by
      simp only [darkForInt, zeroNaNs] at h
      split at h
      · exact List.mem_of_getElem? h
      · exact List.mem_of_getLast? h
    simp only [List.mem_map] at this
    obtain ⟨r, _, rfl⟩ := this
    exact getElem?_nanToZero_isSome r

/-- C17.  With matching group settings, dark subtraction changes no science value
between number and not-a-number, whatever the dark (3-D or 4-D, any NaNs, any
lengths, extrapolated or not) contains.

Partial: the listed property does not restrict the group settings for the first
half of the claim; `C14_coarse_dark_misaligned` is a counterexample for
non-matching settings with a dark that averages frames, and
`C17_frame_dark_keeps_numbers_partial` covers the frame-resolved dark. -/
theorem C17_matching_keeps_numbers_partial (sci : Sci α) (drk : Ref α) (res : Result α)
    (hm1 : sci.nframes = drk.nframes) (hm2 : sci.groupgap = drk.groupgap)
    (hres : doCorrection sci drk = some res) :
    res.out.data.map (fun row => row.map Option.isSome) =
      sci.data.map (fun row => row.map Option.isSome) := by
  unfold doCorrection at hres
  cases he : extended sci drk with
  | none => simp [he] at hres
  | some a =>
    simp only [he] at hres
    rw [if_neg (by omega), if_pos ⟨hm1, hm2⟩] at hres
    simp only [Option.map_eq_some_iff] at hres
    obtain ⟨o, ho, rfl⟩ := hres
    obtain ⟨dq, _, _, _, hlen, hrow⟩ := subtractDark_cases sci _ o ho
    apply List.ext_getElem
    · simpa using hlen
    · intro i h1 h2
      have hi : i < sci.data.length := by simpa using h2
      obtain ⟨d, hd, hdl, hod⟩ := hrow i sci.data[i] (by simp [hi])
      have hio : i < o.data.length := by omega
      have : o.data[i] = List.zipWith osub sci.data[i] d := by
        rw [List.getElem?_eq_getElem hio] at hod
        simpa using hod
      simp only [List.getElem_map, this]
      exact zipWith_osub_isSome _ _ (darkForInt_zeroed a _ i d hd) hdl

/-- C17 (zero where the dark is not a number).  With matching settings, a 3-D
dark of two or more groups: group `g` of every integration loses exactly the
dark of group `g`, where a NaN in the dark counts as zero. -/
theorem C17_matching_subtracts (sci : Sci α) (drk : Ref α) (n : Nat)
    (r : List (Option α)) (dq : Nat)
    (hrect : Rect sci n) (hnf : 1 ≤ sci.nframes)
    (harr : drk.arr = .d3 r dq) (hng : drk.ngroups = r.length) (hlen : 2 ≤ r.length)
    (hm1 : sci.nframes = drk.nframes) (hm2 : sci.groupgap = drk.groupgap) :
    ∃ res, doCorrection sci drk = some res ∧ res.skipped = false ∧
      res.out.data = sci.data.zipIdx.map (fun p => subtractGroups p.1 (darkAt r)) := by
  have hsn := rect_ngroups hrect
  obtain ⟨arr0, he, hz⟩ := extended_d3 sci drk r dq harr hlen
  have hcov := appended_covers sci drk (by omega) (by omega)
  rw [← hm1, ← hm2, hng, hsn] at hcov
  have hn : n ≤ r.length + appended sci drk := by
    by_contra hc
    set m := r.length + appended sci drk with hmdef
    clear_value m
    obtain ⟨q, rfl⟩ := Nat.exists_eq_add_of_lt (Nat.lt_of_not_le hc)
    have h1 : 1 ≤ m := by omega
    rw [show m + q + 1 = m + (q + 1) by omega, totalFrames_add _ _ _ _ h1] at hcov
    have : (q + 1) * (sci.nframes + sci.groupgap) ≥ 1 * 1 :=
      Nat.mul_le_mul (by omega) (by omega)
    omega
  unfold doCorrection
  rw [he]
  simp only [hz]
  rw [if_neg (by omega), if_pos ⟨hm1, hm2⟩]
  have hs := subtractDark_eq sci (.d3 (fullRamp r (appended sci drk)) dq) dq n
    (fun _ => fullRamp r (appended sci drk)) rfl hrect.2.2 (fun _ _ => rfl) (by
      intro i _
      simpa [fullRamp] using hn)
  rw [hs]
  refine ⟨_, rfl, rfl, ?_⟩
  simp only
  exact zipIdx_map_subtract sci (fun _ => fullRamp r (appended sci drk)) (fun _ => darkAt r) n hrect.2.2
    (fun i _ => ⟨_, hn, rfl⟩)

theorem subtractGroups_isSome (row : List (Option α)) (f : Nat → α) :
    (subtractGroups row f).map Option.isSome = row.map Option.isSome := by
  unfold subtractGroups
  apply List.ext_getElem
  · simp
  · intro i h1 h2
    simp

/-- C17 for a frame-resolved 3-D dark and any science group settings. -/
theorem C17_frame_dark_keeps_numbers_partial (sci : Sci α) (drk : Ref α) (n : Nat)
    (r : List (Option α)) (dq : Nat)
    (hrect : Rect sci n) (hnf : 1 ≤ sci.nframes)
    (harr : drk.arr = .d3 r dq) (hng : drk.ngroups = r.length) (hlen : 2 ≤ r.length)
    (hdnf : drk.nframes = 1) (hdgap : drk.groupgap = 0) :
    ∃ res, doCorrection sci drk = some res ∧
      res.out.data.map (fun row => row.map Option.isSome) =
        sci.data.map (fun row => row.map Option.isSome) := by
  obtain ⟨res, h1, _, h3⟩ := C14_frame_average_aligned_partial sci drk n r dq hrect hnf harr hng
    hlen hdnf hdgap
  refine ⟨res, h1, ?_⟩
  rw [h3]
  apply List.ext_getElem
  · simp
  · intro i h1 h2
    simp only [List.map_map, List.getElem_map, Function.comp, List.getElem_zipIdx]
    exact subtractGroups_isSome _ _

/-- Matching settings, NaN in the dark and in the science data. -/
example : (doCorrection (⟨[[some 10, some 20, none]], [[0, 0, 0]], 1, 1, 0, none⟩ : Sci ℚ)
      exDark).map (fun r => r.out.data) =
    some [[some 9, some 20, none]] := by decide +kernel

/-! ## C18 -/

/-- Specification: index of the dark integration used for science integration
`i`. -/
def darkChoice (dint : Nat) (intstart : Option Int) (i : Nat) : Nat :=
  if (intstart = none ∨ intstart = some 1) ∧ i < dint then i else dint - 1

theorem darkForInt_choice (rs : List (List (Option α))) (dq : List (List Nat))
    (s : Option Int) (i : Nat) :
    darkForInt (.d4 rs dq) (s.getD 1) i = rs[darkChoice rs.length s i]? := by
  simp only [darkForInt, darkChoice]
  cases s with
  | none =>
    simp only [Option.getD_none, and_true, true_or, true_and]
    split
    · rfl
    · rw [List.getLast?_eq_getElem?]
  | some v =>
    simp only [Option.getD_some, reduceCtorEq, false_or, Option.some.injEq]
    by_cases h : i < rs.length ∧ v = 1
    · rw [if_pos h, if_pos ⟨h.2, h.1⟩]
    · rw [if_neg h, if_neg (fun hc => h ⟨hc.2, hc.1⟩), List.getLast?_eq_getElem?]

theorem darkChoice_lt (dint : Nat) (s : Option Int) (i : Nat) (h : 0 < dint) :
    darkChoice dint s i < dint := by
  unfold darkChoice
  split
  · rename_i h2; exact h2.2
  · omega

/-- C18 (direct subtraction).  With matching group settings and a 4-D dark, every
science integration is corrected with exactly the dark integration prescribed:
its own if the exposure starts at integration one and the dark has it, otherwise
the last one. -/
theorem C18_integration_choice (sci : Sci α) (drk : Ref α) (n : Nat)
    (rs : List (List (Option α))) (dq : List (List Nat)) (w : Nat)
    (hrect : Rect sci n) (hnf : 1 ≤ sci.nframes)
    (harr : drk.arr = .d4 rs dq) (hne : rs ≠ [])
    (hng : ∀ r ∈ rs, r.length = drk.ngroups) (hlen : 2 ≤ drk.ngroups)
    (hw : darkDq drk.arr = some w)
    (hm1 : sci.nframes = drk.nframes) (hm2 : sci.groupgap = drk.groupgap) :
    ∃ res, doCorrection sci drk = some res ∧ res.skipped = false ∧
      res.out.data = sci.data.zipIdx.map (fun p =>
        subtractGroups p.1 (darkAt ((rs[darkChoice rs.length sci.intstart p.2]?).getD []))) := by
  have hsn := rect_ngroups hrect
  obtain ⟨arr0, he, hz⟩ := extended_d4 sci drk rs dq harr (by
    intro r hr; rw [hng r hr]; exact hlen)
  have hcov := appended_covers sci drk (by omega) (by omega)
  rw [← hm1, ← hm2, hsn] at hcov
  have hn : n ≤ drk.ngroups + appended sci drk := by
    by_contra hc
    set m := drk.ngroups + appended sci drk with hmdef
    clear_value m
    obtain ⟨q, rfl⟩ := Nat.exists_eq_add_of_lt (Nat.lt_of_not_le hc)
    have h1 : 1 ≤ m := by omega
    rw [show m + q + 1 = m + (q + 1) by omega, totalFrames_add _ _ _ _ h1] at hcov
    have : (q + 1) * (sci.nframes + sci.groupgap) ≥ 1 * 1 :=
      Nat.mul_le_mul (by omega) (by omega)
    omega
  have hpos : 0 < rs.length := List.length_pos_of_ne_nil hne
  unfold doCorrection
  rw [he]
  simp only [hz]
  rw [if_neg (by omega), if_pos ⟨hm1, hm2⟩]
  have hdq' : darkDq (.d4 (rs.map (fun r => fullRamp r (appended sci drk))) dq) = some w := by
    rw [harr] at hw
    simpa [darkDq] using hw
  have hsel : ∀ i, ∃ r, rs[darkChoice rs.length sci.intstart i]? = some r ∧ r ∈ rs := by
    intro i
    have := darkChoice_lt rs.length sci.intstart i hpos
    exact ⟨rs[darkChoice rs.length sci.intstart i], by simp [this], by simp⟩
  have hs := subtractDark_eq sci _ w n
    (fun i => fullRamp ((rs[darkChoice rs.length sci.intstart i]?).getD []) (appended sci drk))
    hdq' hrect.2.2 (by
      intro i _
      rw [darkForInt_choice]
      obtain ⟨r, h1, _⟩ := hsel i
      simp [h1]) (by
      intro i _
      obtain ⟨r, h1, h2⟩ := hsel i
      simp [fullRamp, h1, hng r h2, hn])
  rw [hs]
  refine ⟨_, rfl, rfl, ?_⟩
  simp only
  refine zipIdx_map_subtract sci
    (fun i => fullRamp ((rs[darkChoice rs.length sci.intstart i]?).getD []) (appended sci drk))
    (fun i => darkAt ((rs[darkChoice rs.length sci.intstart i]?).getD [])) n hrect.2.2 ?_
  intro i _
  obtain ⟨r, h1, h2⟩ := hsel i
  refine ⟨r.length + appended sci drk, by rw [hng r h2]; exact hn, ?_⟩
  simp [fullRamp, h1]

/-- C18 (averaged darks).  With a frame-resolved 4-D dark averaged to the science
group structure the same choice is made and the averaged values are those of the
chosen dark integration, provided the exposure starts at integration one or the
dark has no more integrations than the science data.

Partial: the proviso cannot be dropped, see `C18_unfilled_dark_used`. -/
theorem C18_integration_choice_averaged_partial (sci : Sci α) (drk : Ref α) (n : Nat)
    (rs : List (List (Option α))) (dq : List (List Nat)) (w : Nat)
    (hrect : Rect sci n) (hnf : 1 ≤ sci.nframes)
    (harr : drk.arr = .d4 rs dq) (hne : rs ≠ [])
    (hng : ∀ r ∈ rs, r.length = drk.ngroups) (hlen : 2 ≤ drk.ngroups)
    (hw : darkDq drk.arr = some w)
    (hdnf : drk.nframes = 1) (hdgap : drk.groupgap = 0)
    (hmis : ¬ (sci.nframes = 1 ∧ sci.groupgap = 0))
    (hprov : sci.intstart = none ∨ sci.intstart = some 1 ∨ rs.length ≤ sci.data.length) :
    ∃ res, doCorrection sci drk = some res ∧ res.skipped = false ∧
      res.out.data = sci.data.zipIdx.map (fun p =>
        subtractGroups p.1 (darkGroupMean
          ((rs[darkChoice rs.length sci.intstart p.2]?).getD []) sci.nframes sci.groupgap)) := by
  have hsn := rect_ngroups hrect
  obtain ⟨arr0, he, hz⟩ := extended_d4 sci drk rs dq harr (by
    intro r hr; rw [hng r hr]; exact hlen)
  have hcov := appended_covers sci drk (by omega) (by omega)
  rw [hdnf, hdgap, hsn] at hcov
  have hcov' : totalFrames n sci.nframes sci.groupgap ≤ drk.ngroups + appended sci drk := by
    simpa [totalFrames] using hcov
  have hpos : 0 < rs.length := List.length_pos_of_ne_nil hne
  have hspos : 0 < sci.data.length := List.length_pos_of_ne_nil hrect.1
  set avgOf : List (Option α) → List (Option α) := fun r =>
    (List.range n).map (fun g => some (darkGroupMean r sci.nframes sci.groupgap g)) with havgOf
  set m := if rs.length > sci.data.length then sci.data.length else rs.length with hm
  have hmle : m ≤ rs.length := by rw [hm]; split <;> omega
  have havg : averageArr (.d4 (rs.map (fun r => fullRamp r (appended sci drk))) dq)
      sci.data.length sci.ngroups sci.nframes sci.groupgap =
      some (.d4 ((rs.take m).map avgOf ++
        List.replicate (rs.length - m) (List.replicate n (some 0))) dq) := by
    simp only [averageArr, List.length_map, ← hm, hsn]
    rw [mapM_some_of_forall _ (fun l => (averageLoop l sci.nframes sci.groupgap n 0).getD [])]
    · simp only [Option.map_some, Option.some.injEq, DarkArr.d4.injEq, and_true,
        List.append_cancel_right_eq]
      rw [← List.map_take, List.map_map]
      apply List.map_congr_left
      intro r hr
      have hr' := List.mem_of_mem_take hr
      simp only [Function.comp]
      rw [average_fullRamp r _ n _ _ hnf (by rw [hng r hr']; exact hcov')]
      rfl
    · intro l hl
      rw [← List.map_take] at hl
      simp only [List.mem_map] at hl
      obtain ⟨r, hr, rfl⟩ := hl
      have hr' := List.mem_of_mem_take hr
      rw [average_fullRamp r _ n _ _ hnf (by rw [hng r hr']; exact hcov')]
      rfl
  have hlenavg : ((rs.take m).map avgOf ++
        List.replicate (rs.length - m) (List.replicate n (some 0))).length = rs.length := by
    simp; omega
  have hsel : ∀ i, i < sci.data.length → ∃ r,
      rs[darkChoice rs.length sci.intstart i]? = some r ∧
      ((rs.take m).map avgOf ++ List.replicate (rs.length - m)
        (List.replicate n (some 0)))[darkChoice rs.length sci.intstart i]? = some (avgOf r) := by
    intro i hi
    have hlt := darkChoice_lt rs.length sci.intstart i hpos
    refine ⟨rs[darkChoice rs.length sci.intstart i], by simp [hlt], ?_⟩
    have hltm : darkChoice rs.length sci.intstart i < m := by
      rw [hm]
      split
      · rename_i hgt
        have hst : sci.intstart = none ∨ sci.intstart = some 1 := by
          rcases hprov with h | h | h
          · exact Or.inl h
          · exact Or.inr h
          · omega
        unfold darkChoice
        rw [if_pos ⟨hst, by omega⟩]
        exact hi
      · exact hlt
    rw [List.getElem?_append_left (by simp; omega)]
    rw [List.getElem?_map, List.getElem?_take_of_lt hltm]
    simp [hlt]
  unfold doCorrection
  rw [he]
  simp only [hz]
  rw [if_neg (by omega), if_neg (by omega), havg]
  simp only
  have hdq' : darkDq (.d4 ((rs.take m).map avgOf ++
        List.replicate (rs.length - m) (List.replicate n (some 0))) dq) = some w := by
    rw [harr] at hw
    simp only [darkDq] at hw ⊢
    rw [hlenavg]; exact hw
  have hs := subtractDark_eq sci _ w n
    (fun i => avgOf ((rs[darkChoice rs.length sci.intstart i]?).getD []))
    hdq' hrect.2.2 (by
      intro i hi
      rw [darkForInt_choice, hlenavg]
      obtain ⟨r, h1, h2⟩ := hsel i hi
      rw [h2, h1]; rfl) (by
      intro i hi
      simp [havgOf])
  rw [hs]
  refine ⟨_, rfl, rfl, ?_⟩
  simp only
  exact zipIdx_map_subtract sci
    (fun i => avgOf ((rs[darkChoice rs.length sci.intstart i]?).getD []))
    (fun i => darkGroupMean ((rs[darkChoice rs.length sci.intstart i]?).getD []) sci.nframes
      sci.groupgap) n hrect.2.2 (fun i _ => ⟨n, le_refl n, rfl⟩)

/-- A 4-D example: two dark integrations, three science integrations. -/
example : (doCorrection 
      (⟨[[some 10, some 20], [some 10, some 20], [some 10, some 20]], [], 0, 1, 0, some 1⟩ : Sci ℚ)
      ⟨.d4 [[some 1, some 2], [some 3, some 4]] [[1], [2]], 2, 1, 0⟩).map (fun r => (r.out.data, r.out.pixeldq)) =
    some ([[some 9, some 18], [some 7, some 16], [some 7, some 16]], 3) := by decide +kernel

/-- The proviso of `C18_integration_choice_averaged_partial` is needed: a segment
that does not start at integration one, averaged with a dark that has more
integrations than the segment, is "corrected" with a dark integration that was
never filled, i.e. with zeros, although the reference holds a non-zero dark. -/
theorem C18_unfilled_dark_used :
    (doCorrection (⟨[[some 10]], [[0]], 0, 2, 0, some 5⟩ : Sci ℚ)
      ⟨.d4 [[some 1, some 1], [some 3, some 3]] [[0], [0]], 2, 1, 0⟩).map (fun r => (r.skipped, r.out.data)) =
      some (false, [[some 10]]) := by decide +kernel

/-! ## C63 -/

/-- Specification: the DQ words the dark reference gives for this pixel. -/
def darkWords : DarkArr α → List Nat
  | .d3 _ dq => [dq]
  | .d4 rs dq => (dq.take rs.length).filterMap List.head?

theorem testBit_foldl_or (l : List Nat) (a b : Nat) :
    (l.foldl (· ||| ·) a).testBit b = (a.testBit b || l.any (fun w => w.testBit b)) := by
  induction l generalizing a with
  | nil => simp
  | cons x l ih => simp [ih, Nat.testBit_or, Bool.or_assoc]

theorem darkDq_testBit (arr : DarkArr α) (w b : Nat) (h : darkDq arr = some w)
    (hne : ∀ rs dq, arr = .d4 rs dq → rs ≠ []) :
    w.testBit b = (darkWords arr).any (fun x => x.testBit b) := by
  cases arr with
  | d3 r dq => simp [darkDq] at h; subst h; simp [darkWords]
  | d4 rs dq =>
    have hpos : 0 < rs.length := List.length_pos_of_ne_nil (hne rs dq rfl)
    have hmax : max rs.length 1 = rs.length := by omega
    simp only [darkDq, Option.map_eq_some_iff, hmax] at h
    obtain ⟨l, hl, rfl⟩ := h
    rw [testBit_foldl_or]
    simp only [Nat.zero_testBit, Bool.false_or, darkWords]
    obtain ⟨h1, h2⟩ := forall_of_mapM_some _ _ _ hl
    simp only [List.length_range] at h1
    have hlist : l = (dq.take rs.length).filterMap List.head? := by
      have hdqlen : rs.length ≤ dq.length := by
        obtain ⟨y, hy, _⟩ := h2 (rs.length - 1) (rs.length - 1)
          (by simp [show rs.length - 1 < rs.length by omega])
        simp only [Option.bind_eq_some_iff] at hy
        obtain ⟨g, hg, _⟩ := hy
        have := (List.getElem?_eq_some_iff.mp hg).1
        omega
      have key : (dq.take rs.length).map List.head? = l.map some := by
        apply List.ext_getElem
        · simp; omega
        · intro i h3 h4
          have hi : i < rs.length := by simp at h4; omega
          obtain ⟨y, hy, hly⟩ := h2 i i (by simp [hi])
          simp only [Option.bind_eq_some_iff] at hy
          obtain ⟨g, hg, hg0⟩ := hy
          have e1 : dq[i]'(by omega) = g := by
            have := (List.getElem?_eq_some_iff.mp hg).2
            exact this
          have e2 := (List.getElem?_eq_some_iff.mp hly).2
          simp only [List.getElem_map, List.getElem_take, e1, e2]
          rw [List.head?_eq_getElem?, hg0]
      have := congrArg (List.filterMap id) key
      simpa [List.filterMap_map, Function.comp_def] using this.symm
    rw [hlist]

/-- C63.  Whenever the subtraction is performed, the pixel DQ of the output has
exactly the science flags plus the flags of the dark reference (of every dark
integration, for a 4-D dark), and the group DQ is unchanged. -/
theorem C63_dark_dq_propagated (sci : Sci α) (drk : Ref α) (res : Result α)
    (hne : ∀ rs dq, drk.arr = .d4 rs dq → rs ≠ [])
    (hres : doCorrection sci drk = some res) (hns : res.skipped = false) :
    res.out.groupdq = sci.groupdq ∧
    ∀ b, res.out.pixeldq.testBit b =
      (sci.pixeldq.testBit b || (darkWords drk.arr).any (fun x => x.testBit b)) := by
  -- extrapolation and NaN replacement keep the DQ words
  have hext : ∀ a, extended sci drk = some a →
      darkWords (zeroNaNs a) = darkWords drk.arr ∧ darkDq (zeroNaNs a) = darkDq drk.arr ∧
      (∀ rs dq, zeroNaNs a = .d4 rs dq → rs ≠ []) := by
    intro a ha
    simp only [extended] at ha
    split at ha
    · cases harr : drk.arr with
      | d3 r dq =>
        simp only [harr, extrapolateArr, Option.map_eq_some_iff] at ha
        obtain ⟨r', _, rfl⟩ := ha
        simp [zeroNaNs, darkWords, darkDq]
      | d4 rs dq =>
        simp only [harr, extrapolateArr, Option.map_eq_some_iff] at ha
        obtain ⟨r', hr', rfl⟩ := ha
        have hl := (forall_of_mapM_some _ _ _ hr').1
        refine ⟨by simp [zeroNaNs, darkWords, hl], by simp [zeroNaNs, darkDq, hl], ?_⟩
        intro rs2 dq2 h2
        simp only [zeroNaNs, DarkArr.d4.injEq] at h2
        rw [← h2.1]
        have := hne rs dq harr
        intro hc
        have hlen := congrArg List.length hc
        simp [hl] at hlen
        exact this hlen
    · simp only [Option.some.injEq] at ha
      subst ha
      cases harr : drk.arr with
      | d3 r dq => simp [zeroNaNs, darkWords, darkDq]
      | d4 rs dq =>
        refine ⟨by simp [zeroNaNs, darkWords], by simp [zeroNaNs, darkDq], ?_⟩
        intro rs2 dq2 h2
        simp only [zeroNaNs, DarkArr.d4.injEq] at h2
        rw [← h2.1]
        simpa using hne rs dq harr
  unfold doCorrection at hres
  cases he : extended sci drk with
  | none => simp [he] at hres
  | some a =>
    obtain ⟨hw, hd, hn4⟩ := hext a he
    simp only [he] at hres
    split at hres
    · simp only [Option.some.injEq] at hres
      subst hres
      simp at hns
    · split at hres
      · simp only [Option.map_eq_some_iff] at hres
        obtain ⟨o, ho, rfl⟩ := hres
        obtain ⟨dq, hdq, hp, hg, _, _⟩ := subtractDark_cases sci _ o ho
        refine ⟨hg, fun b => ?_⟩
        rw [hp, Nat.testBit_or, darkDq_testBit _ dq b hdq hn4, hw]
      · split at hres
        · simp at hres
        · rename_i avg havg
          simp only [Option.map_eq_some_iff] at hres
          obtain ⟨o, ho, rfl⟩ := hres
          obtain ⟨dq, hdq, hp, hg, _, _⟩ := subtractDark_cases sci _ o ho
          refine ⟨hg, fun b => ?_⟩
          have havgw : darkWords avg = darkWords (zeroNaNs a) ∧
              (∀ rs dq, avg = .d4 rs dq → rs ≠ []) := by
            cases hz : zeroNaNs a with
            | d3 r dq =>
              simp only [hz, averageArr, Option.map_eq_some_iff] at havg
              obtain ⟨r', _, rfl⟩ := havg
              simp [darkWords]
            | d4 rs dq =>
              simp only [hz, averageArr, Option.map_eq_some_iff] at havg
              obtain ⟨r', hr', rfl⟩ := havg
              have hl := (forall_of_mapM_some _ _ _ hr').1
              have hm : (if rs.length > sci.data.length then sci.data.length else rs.length)
                ≤ rs.length := by split <;> omega
              have hlen : (r' ++ List.replicate (rs.length - (if rs.length > sci.data.length then
                  sci.data.length else rs.length)) (List.replicate sci.ngroups
                    (some (0 : α)))).length = rs.length := by
                simp only [List.length_append, hl, List.length_take, List.length_replicate]
                omega
              refine ⟨by simp only [darkWords, hlen], ?_⟩
              intro rs2 dq2 h2
              simp only [DarkArr.d4.injEq] at h2
              rw [← h2.1]
              intro hc
              have := congrArg List.length hc
              rw [hlen] at this
              have h3 := hn4 rs dq hz
              exact h3 (List.length_eq_zero_iff.mp (by simpa using this))
          rw [hp, Nat.testBit_or, darkDq_testBit _ dq b hdq havgw.2, havgw.1, hw]

example : (doCorrection exSci exDark).map (fun r => (r.skipped, r.out.pixeldq)) =
    some (false, 1 ||| 4) := by decide +kernel

end Verif.Thm
