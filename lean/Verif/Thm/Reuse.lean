import Verif.Thm.Linearity
import Verif.Thm.Dark

/-!
# Reference arrays that a correction step overwrites: properties C135 and C136

`linearity_correction` and the dark step assign into the reference arrays they
are given.  A caller that keeps one reference in memory and corrects several
exposures with it therefore passes the overwritten array from the second
exposure on.  These theorems say what that changes.
-/

set_option linter.unusedSectionVars false

namespace Verif.Thm

open Verif

section LinearityReuse

open Verif.Linearity

variable {α : Type} [Field α] [LinearOrder α]

/-! ## C135 -/

theorem rx_two_le (c : List (Option α)) (linDq pdq nlc : Nat) (q : List (Option α) × Nat)
    (h : prepare c linDq pdq nlc = some q) : 2 ≤ c.length := by
  by_contra hlt
  have hl : ∀ (c : List (Option α)) , c.length < 2 → ∀ p, correctForZero c p nlc = none := by
    intro c hc p
    simp [correctForZero, hc]
  have h1 : (correctForFlag c linDq nlc).length = c.length := by
    simp only [correctForFlag]; split <;> simp [benCoeffs_length]
  have h2 : ∀ p, (correctForNaN (correctForFlag c linDq nlc) p nlc).1.length = c.length := by
    intro p
    simp only [correctForNaN]; split <;> simp [benCoeffs_length, h1]
  simp only [prepare] at h
  rw [hl _ (by rw [h2]; omega)] at h
  cases h

/-- What the first call leaves in the caller's array: the coefficients of a pixel
with a usable solution, the identity polynomial otherwise. -/
theorem rx_coeffsAfter (c c' : List (Option α)) (linDq nlc : Nat)
    (h : coeffsAfter c linDq nlc = some c') :
    2 ≤ c.length ∧
      ((NoSolution c linDq nlc ∧ c' = benCoeffs c.length) ∨
        (¬ NoSolution c linDq nlc ∧ c' = c)) := by
  simp only [coeffsAfter, Option.map_eq_some_iff] at h
  obtain ⟨q, hq, rfl⟩ := h
  have h2 := rx_two_le c linDq 0 nlc q hq
  refine ⟨h2, ?_⟩
  by_cases hn : NoSolution c linDq nlc
  · obtain ⟨p, hp, _⟩ := prepare_bad c linDq 0 nlc h2 hn
    rw [hp] at hq
    cases hq
    exact Or.inl ⟨hn, rfl⟩
  · have hp := prepare_good c linDq 0 nlc h2 hn
    rw [hp] at hq
    cases hq
    exact Or.inr ⟨hn, rfl⟩

/-- Preparing the identity polynomial changes nothing but the DQ word. -/
theorem rx_prepare_ben (n linDq pdq nlc : Nat) (hn : 2 ≤ n) :
    prepare (benCoeffs n : List (Option α)) linDq pdq nlc = some (benCoeffs n, pdq ||| linDq) := by
  have hf : correctForFlag (benCoeffs n : List (Option α)) linDq nlc = benCoeffs n := by
    simp only [correctForFlag, benCoeffs_length, ite_self]
  simp only [prepare, hf, correctForNaN, benCoeffs_no_none, Bool.false_eq_true, if_false,
    correctForZero, benCoeffs_length, benCoeffs_at_one n hn]
  rw [if_neg (by omega), if_neg (by simp)]

/-- C135 (science values and zero frame).  After a call of `linearity_correction`
has overwritten the coefficient array, a call on any other exposure with the
overwritten array returns the same science data and zero frame as with the
original array.  For its DQ word see the two theorems below. -/
theorem C135_same_values (c c' : List (Option α)) (linDq sat nlc : Nat)
    (data : List (List (Option α))) (gdq : List (List Nat)) (pdq : Nat)
    (zframe : Option (List (Option α)))
    (h : coeffsAfter c linDq nlc = some c') :
    ∃ o o', linearityPixel data gdq pdq c linDq sat nlc zframe = some o ∧
      linearityPixel data gdq pdq c' linDq sat nlc zframe = some o' ∧
      o'.data = o.data ∧ o'.zframe = o.zframe ∧ o'.pdq = pdq ||| linDq := by
  obtain ⟨h2, h | h⟩ := rx_coeffsAfter c c' linDq nlc h
  · obtain ⟨hn, rfl⟩ := h
    obtain ⟨p, hp, _⟩ := prepare_bad c linDq pdq nlc h2 hn
    have hp' := rx_prepare_ben (α := α) c.length linDq pdq nlc h2
    simp [linearityPixel, hp, hp']
  · obtain ⟨hn, rfl⟩ := h
    have hp := prepare_good c' linDq pdq nlc h2 hn
    simp [linearityPixel, hp]

/-- C135 (DQ).  The second call also returns the same DQ word, and so the same
output altogether, when the reason for the missing solution is in the reference
DQ, or there is a solution.

Partial: a pixel whose coefficients hold a NaN or a zero linear term, without
the NO_LIN_CORR bit in the reference DQ, is flagged NO_LIN_CORR by the first
call only; see `C135_flag_lost` and `C135_flag_lost_iff`. -/
theorem C135_same_output_partial (c c' : List (Option α)) (linDq sat nlc : Nat)
    (data : List (List (Option α))) (gdq : List (List Nat)) (pdq : Nat)
    (zframe : Option (List (Option α)))
    (h : coeffsAfter c linDq nlc = some c')
    (hok : linDq &&& nlc = nlc ∨ ¬ NoSolution c linDq nlc) :
    linearityPixel data gdq pdq c' linDq sat nlc zframe =
      linearityPixel data gdq pdq c linDq sat nlc zframe := by
  obtain ⟨h2, h | h⟩ := rx_coeffsAfter c c' linDq nlc h
  · obtain ⟨hn, rfl⟩ := h
    have hf : linDq &&& nlc = nlc := by
      rcases hok with hok | hok
      · exact hok
      · exact absurd hn hok
    have hp' := rx_prepare_ben (α := α) c.length linDq pdq nlc h2
    have hp : prepare c linDq pdq nlc = some (benCoeffs c.length, pdq ||| linDq) := by
      simp only [prepare, correctForFlag, if_pos hf, correctForNaN, benCoeffs_no_none,
        Bool.false_eq_true, if_false, correctForZero, benCoeffs_length,
        benCoeffs_at_one c.length h2]
      rw [if_neg (by omega), if_neg (by simp)]
    simp only [linearityPixel, hp, hp']
  · obtain ⟨_, rfl⟩ := h
    rfl

/-- C135 (exactly when the flag is lost).  For a pixel without a usable solution,
the DQ word of the second call equals that of a call with the original
coefficients iff every NO_LIN_CORR bit was already in the input or reference DQ. -/
theorem C135_flag_lost_iff (c c' : List (Option α)) (linDq sat nlc : Nat)
    (data : List (List (Option α))) (gdq : List (List Nat)) (pdq : Nat)
    (zframe : Option (List (Option α))) (o o' : Out α)
    (h : coeffsAfter c linDq nlc = some c') (hn : NoSolution c linDq nlc)
    (ho : linearityPixel data gdq pdq c linDq sat nlc zframe = some o)
    (ho' : linearityPixel data gdq pdq c' linDq sat nlc zframe = some o') :
    o'.pdq = o.pdq ↔ ∀ b, nlc.testBit b = true → pdq.testBit b = true ∨ linDq.testBit b = true := by
  obtain ⟨h2, h | h⟩ := rx_coeffsAfter c c' linDq nlc h
  · obtain ⟨_, rfl⟩ := h
    obtain ⟨p, hp, hb⟩ := prepare_bad c linDq pdq nlc h2 hn
    have hp' := rx_prepare_ben (α := α) c.length linDq pdq nlc h2
    simp only [linearityPixel, hp, Option.some.injEq] at ho
    simp only [linearityPixel, hp', Option.some.injEq] at ho'
    subst ho
    subst ho'
    simp only
    constructor
    · intro he b hbit
      have := hb b
      rw [← he, Nat.testBit_or, hbit] at this
      simp only [Bool.or_true] at this
      simpa using this
    · intro hall
      apply Nat.eq_of_testBit_eq
      intro b
      rw [hb b, Nat.testBit_or]
      cases hbit : nlc.testBit b with
      | false => simp
      | true =>
        rcases hall b hbit with h | h <;> simp [h]
  · exact absurd hn h.1

/-- The flag is lost: a pixel whose linear coefficient is zero gets NO_LIN_CORR (8)
for the first exposure and not for the second. -/
theorem C135_flag_lost :
    coeffsAfter [some (1 : ℚ), some 0, some 3] 4 8 = some [some 0, some 1, some 0] ∧
      (linearityPixel [[some (2 : ℚ)]] [[0]] 1 [some 1, some 0, some 3] 4 2 8 none).map Out.pdq =
        some 13 ∧
      (linearityPixel [[some (2 : ℚ)]] [[0]] 1 [some 0, some 1, some 0] 4 2 8 none).map Out.pdq =
        some 5 := by
  decide +kernel

example : coeffsAfter [some (1 : ℚ), some 2, some 3] 4 8 = some [some 1, some 2, some 3] ∧
    ¬ NoSolution ([some (1 : ℚ), some 2, some 3]) 4 8 := by
  refine ⟨by decide +kernel, ?_⟩
  simp [NoSolution]
example : coeffsAfter [some (1 : ℚ), none, some 3] 12 8 = some [some 0, some 1, some 0] ∧
    (12 : Nat) &&& 8 = 8 := by decide +kernel

end LinearityReuse

section DarkReuse

open Verif.Dark

variable {α : Type} [Field α]

/-! ## C136 -/

/-- Specification: of the last two groups of a ramp (the ones an extrapolation
starts from) both are numbers, or none is, or the one that is a number is zero. -/
def RxTail (r : List (Option α)) : Prop :=
  ∀ l p, r[r.length - 1]? = some l → r[r.length - 2]? = some p →
    (l = none ↔ p = none) ∨ (l.getD 0 = 0 ∧ p.getD 0 = 0)

/-- Specification: `RxTail` for all ramps of a dark pixel. -/
def RxTails : DarkArr α → Prop
  | .d3 r _ => RxTail r
  | .d4 rs _ => ∀ r ∈ rs, RxTail r

/-- Specification: the science exposure outlasts the dark, which is therefore
extrapolated. -/
def RxLonger (sci : Sci α) (drk : Ref α) : Prop :=
  drk.ngroups * drk.nframes + (drk.ngroups - 1) * drk.groupgap <
    sci.ngroups * sci.nframes + (sci.ngroups - 1) * sci.groupgap

theorem rx_nanToZero_idem (x : Option α) : nanToZero (nanToZero x) = nanToZero x := by
  cases x <;> rfl

theorem rx_zeroNaNs_idem (a : DarkArr α) : zeroNaNs (zeroNaNs a) = zeroNaNs a := by
  cases a with
  | d3 r dq => simp [zeroNaNs, Function.comp_def, rx_nanToZero_idem]
  | d4 rs dq => simp [zeroNaNs, Function.comp_def, rx_nanToZero_idem]

theorem rx_extrapolate (r : List (Option α)) (n : Nat) (h : RxTail r) :
    (extrapolateInt (r.map nanToZero) n).map (List.map nanToZero) =
      (extrapolateInt r n).map (List.map nanToZero) := by
  by_cases h2 : r.length < 2
  · simp [extrapolateInt, h2]
  · obtain ⟨l, hl⟩ : ∃ l, r[r.length - 1]? = some l := ⟨_, List.getElem?_eq_getElem (by omega)⟩
    obtain ⟨p, hp⟩ : ∃ p, r[r.length - 2]? = some p := ⟨_, List.getElem?_eq_getElem (by omega)⟩
    have ht := h l p hl hp
    simp only [extrapolateInt, List.length_map, h2, if_false, List.getElem?_map, hl, hp,
      Option.map_some, Option.getD_some, nanToZero]
    cases l <;> cases p <;> simp [Function.comp_def, nanToZero, osub] at ht ⊢ <;> simp [ht, nanToZero]

theorem rx_mapM (rs : List (List (Option α))) (n : Nat) (h : ∀ r ∈ rs, RxTail r) :
    ((rs.map (List.map nanToZero)).mapM (fun r => extrapolateInt r n)).map
        (List.map (List.map nanToZero)) =
      (rs.mapM (fun r => extrapolateInt r n)).map (List.map (List.map nanToZero)) := by
  induction rs with
  | nil => simp
  | cons r rs ih =>
    have h1 := rx_extrapolate r n (h r (by simp))
    have h2 := ih (fun x hx => h x (by simp [hx]))
    simp only [List.map_cons, List.mapM_cons]
    cases ha : extrapolateInt (r.map nanToZero) n with
    | none =>
      rw [ha] at h1
      cases hb : extrapolateInt r n with
      | none => rfl
      | some b => rw [hb] at h1; simp at h1
    | some a =>
      rw [ha] at h1
      cases hb : extrapolateInt r n with
      | none => rw [hb] at h1; simp at h1
      | some b =>
        rw [hb] at h1
        simp only [Option.map_some, Option.some.injEq] at h1
        cases hc : (rs.map (List.map nanToZero)).mapM (fun r => extrapolateInt r n) with
        | none =>
          rw [hc] at h2
          cases hd : rs.mapM (fun r => extrapolateInt r n) with
          | none => rfl
          | some d => rw [hd] at h2; simp at h2
        | some c =>
          rw [hc] at h2
          cases hd : rs.mapM (fun r => extrapolateInt r n) with
          | none => rw [hd] at h2; simp at h2
          | some d =>
            rw [hd] at h2
            simp only [Option.map_some, Option.some.injEq] at h2
            simp [h1, h2]

theorem rx_extrapolateArr (a : DarkArr α) (n : Nat) (h : RxTails a) :
    (extrapolateArr (zeroNaNs a) n).map zeroNaNs = (extrapolateArr a n).map zeroNaNs := by
  cases a with
  | d3 r dq =>
    have := rx_extrapolate r n h
    simp only [zeroNaNs, extrapolateArr, Option.map_map]
    have e := congrArg (Option.map (fun r' => DarkArr.d3 r' dq)) this
    simpa [Option.map_map, Function.comp_def, zeroNaNs] using e
  | d4 rs dq =>
    have := rx_mapM rs n h
    simp only [zeroNaNs, extrapolateArr, Option.map_map]
    have e := congrArg (Option.map (fun r' => DarkArr.d4 r' dq)) this
    simpa [Option.map_map, Function.comp_def, zeroNaNs] using e

theorem rx_extended (sci : Sci α) (drk : Ref α)
    (h : RxLonger sci drk → RxTails drk.arr) :
    (extended sci { drk with arr := zeroNaNs drk.arr }).map zeroNaNs =
      (extended sci drk).map zeroNaNs := by
  simp only [extended]
  by_cases hl : RxLonger sci drk
  · have hl' : totalFrames sci.ngroups sci.nframes sci.groupgap >
        totalFrames drk.ngroups drk.nframes drk.groupgap := hl
    rw [if_pos hl', if_pos hl']
    exact rx_extrapolateArr _ _ (h hl)
  · have hl' : ¬ totalFrames sci.ngroups sci.nframes sci.groupgap >
        totalFrames drk.ngroups drk.nframes drk.groupgap := hl
    rw [if_neg hl', if_neg hl']
    simp [rx_zeroNaNs_idem]

theorem rx_zeroed (sci : Sci α) (drk : Ref α) (h : RxLonger sci drk → RxTails drk.arr) :
    doCorrection sci { drk with arr := zeroNaNs drk.arr } = doCorrection sci drk := by
  have he := rx_extended sci drk h
  simp only [doCorrection]
  cases h1 : extended sci { drk with arr := zeroNaNs drk.arr } with
  | none =>
    rw [h1] at he
    cases h2 : extended sci drk with
    | none => rfl
    | some b => rw [h2] at he; simp at he
  | some a =>
    rw [h1] at he
    cases h2 : extended sci drk with
    | none => rw [h2] at he; simp at he
    | some b =>
      rw [h2] at he
      simp only [Option.map_some, Option.some.injEq] at he
      simp only [he]

theorem rx_history (prev : List (Sci α)) (drk : Ref α) :
    prev.foldl (fun d s => modelAfter s d) drk = drk ∨
      prev.foldl (fun d s => modelAfter s d) drk = { drk with arr := zeroNaNs drk.arr } := by
  have hz : ∀ (l : List (Sci α)), l.foldl (fun d s => modelAfter s d)
      { drk with arr := zeroNaNs drk.arr } = { drk with arr := zeroNaNs drk.arr } := by
    intro l
    induction l with
    | nil => rfl
    | cons s l ih =>
      have : modelAfter s { drk with arr := zeroNaNs drk.arr } =
          { drk with arr := zeroNaNs drk.arr } := by
        simp only [modelAfter, rx_zeroNaNs_idem, ite_self]
      rw [List.foldl_cons, this]
      exact ih
  induction prev with
  | nil => exact Or.inl rfl
  | cons s l ih =>
    rw [List.foldl_cons]
    by_cases hs : modelAfter s drk = drk
    · rw [hs]; exact ih
    · right
      have : modelAfter s drk = { drk with arr := zeroNaNs drk.arr } := by
        simp only [modelAfter] at hs ⊢
        split
        · rename_i h; rw [if_pos h] at hs; exact absurd rfl hs
        · rename_i h
          rw [if_neg h] at hs
          split
          · rename_i h'; rw [if_pos h'] at hs; exact absurd rfl hs
          · rfl
      rw [this]
      exact hz l

/-- C136.  Whatever exposures were dark-subtracted before with the same in-memory
dark model, the result for the next exposure is that of a fresh copy of the
model, when that exposure does not outlast the dark or of the last two groups of each
dark ramp both are numbers, or none is.

Partial: if the exposure outlasts the dark and one of the last two groups is NaN,
the result depends on what was corrected before; see `C136_history_free_iff`. -/
theorem C136_history_free_partial (prev : List (Sci α)) (sci : Sci α) (drk : Ref α)
    (h : RxLonger sci drk → RxTails drk.arr) :
    doCorrection sci (prev.foldl (fun d s => modelAfter s d) drk) = doCorrection sci drk := by
  rcases rx_history prev drk with e | e
  · rw [e]
  · rw [e]; exact rx_zeroed sci drk h

/-- The metadata of the in-memory model never change, and a skipped or
extrapolated exposure leaves its values too. -/
theorem C136_model_kept (sci : Sci α) (drk : Ref α)
    (h : RxLonger sci drk ∨ drk.nframes > sci.nframes ∨ drk.groupgap > sci.groupgap) :
    modelAfter sci drk = drk := by
  simp only [modelAfter]
  rcases h with h | h
  · exact if_pos h
  · rw [if_pos h, ite_self]

/-- C136 (exactly when).  For an exposure that outlasts a dark with its own group
settings and has a number in the first group after the end of the dark: once an
exposure that does not outlast the dark has been corrected with the same model, the
result is that of a fresh model iff of the last two groups of the dark both are
numbers, or none is, or the one that is a number is zero. -/
theorem C136_history_free_iff [CharZero α] (prev : List (Sci α)) (sci : Sci α) (drk : Ref α)
    (n : Nat) (r : List (Option α)) (dq : Nat)
    (hrect : Rect sci n) (hnf : 1 ≤ sci.nframes)
    (harr : drk.arr = .d3 r dq) (hng : drk.ngroups = r.length) (hlen : 2 ≤ r.length)
    (hm1 : sci.nframes = drk.nframes) (hm2 : sci.groupgap = drk.groupgap)
    (s : Sci α) (hs : s ∈ prev) (hs1 : ¬ RxLonger s drk) (hs2 : drk.nframes ≤ s.nframes)
    (hs3 : drk.groupgap ≤ s.groupgap)
    (row : List (Option α)) (v : α) (hrow : row ∈ sci.data) (hv : row[r.length]? = some (some v)) :
    doCorrection sci (prev.foldl (fun d s => modelAfter s d) drk) = doCorrection sci drk ↔
      RxTail r := by
  have hz : prev.foldl (fun d s => modelAfter s d) drk = { drk with arr := zeroNaNs drk.arr } := by
    obtain ⟨a, b, rfl⟩ := List.append_of_mem hs
    rw [List.foldl_append, List.foldl_cons]
    have hm : ∀ d : Ref α, d = drk ∨ d = { drk with arr := zeroNaNs drk.arr } →
        modelAfter s d = { drk with arr := zeroNaNs drk.arr } := by
      intro d hd
      have h1 : ¬ totalFrames s.ngroups s.nframes s.groupgap >
          totalFrames drk.ngroups drk.nframes drk.groupgap := hs1
      rcases hd with rfl | rfl
      · simp only [modelAfter]
        rw [if_neg h1, if_neg (by omega)]
      · simp only [modelAfter, rx_zeroNaNs_idem, ite_self]
    rw [hm _ (rx_history a drk)]
    rcases rx_history b { drk with arr := zeroNaNs drk.arr } with h | h
    · exact h
    · rw [h]; simp only [rx_zeroNaNs_idem]
  rw [hz]
  constructor
  · intro he
    obtain ⟨x, hx, _, hxd⟩ := C17_matching_subtracts sci drk n r dq hrect hnf harr hng hlen hm1 hm2
    obtain ⟨y, hy, _, hyd⟩ := C17_matching_subtracts sci { drk with arr := zeroNaNs drk.arr } n
      (r.map nanToZero) dq hrect hnf (by simp [harr, zeroNaNs]) (by simpa using hng) (by simpa using hlen) hm1 hm2
    rw [hx, hy] at he
    obtain rfl := Option.some.inj he
    rw [hxd] at hyd
    obtain ⟨i, hi, hri⟩ := List.mem_iff_getElem.1 hrow
    have h1 := congrArg (fun l => (l[i]?).bind (fun q : List (Option α) => q[r.length]?)) hyd
    simp [subtractGroups, hi, hri, hv] at h1
    intro l p hl hp
    simp only [darkAt, List.length_map, lt_irrefl, if_false, List.getElem?_map, hl, hp, Option.map_some,
      Option.getD_some, nanToZero, Nat.sub_self] at h1
    cases l with
    | none =>
      cases p with
      | none => simp
      | some p => right; simpa using h1
    | some l =>
      cases p with
      | some p => simp
      | none =>
        right
        simp at h1
        refine ⟨?_, rfl⟩
        have : (2 : α) * l = 0 := by rw [two_mul]; exact h1.symm
        simpa using this
  · intro ht
    exact rx_zeroed sci drk (fun _ => by rw [harr]; exact ht)

/-- A two-group science exposure and a three-group one. -/
def rxSci2 : Sci ℚ := ⟨[[some 10, some 20]], [[0, 0]], 0, 1, 0, none⟩
def rxSci3 : Sci ℚ := ⟨[[some 10, some 20, some 30]], [[0, 0, 0]], 0, 1, 0, none⟩
/-- A two-group dark whose last group is NaN. -/
def rxDark : Ref ℚ := ⟨.d3 [some 1, none] 0, 2, 1, 0⟩

/-- History matters: the dark `1, NaN` is extrapolated to `1, NaN, NaN` (zero in
the third group) when fresh, and to `1, 0, -1` after a two-group exposure has
been corrected with it. -/
theorem C136_history_matters :
    (doCorrection rxSci3 rxDark).map (fun r => r.out.data) =
        some [[some 9, some 20, some 30]] ∧
      (doCorrection rxSci3 (modelAfter rxSci2 rxDark)).map (fun r => r.out.data) =
        some [[some 9, some 20, some 31]] := by
  decide +kernel

example : RxLonger rxSci3 rxDark ∧ ¬ RxLonger rxSci2 rxDark ∧
    RxTails (DarkArr.d3 [none, some (1 : ℚ), some 3] 0) := by
  refine ⟨by simp [RxLonger, rxSci3, rxDark, Sci.ngroups],
    by simp [RxLonger, rxSci2, rxDark, Sci.ngroups], ?_⟩
  intro l p hl hp
  simp at hl hp
  subst hl hp
  simp
/-- The conditions of `C136_history_free_iff`, met by `rxSci3` after `rxSci2`. -/
example : Rect rxSci3 3 ∧ rxDark.ngroups = [some (1 : ℚ), none].length ∧ ¬ RxTail [some (1 : ℚ), none] ∧
    ([some 10, some 20, some 30] : List (Option ℚ))[2]? = some (some 30) := by
  refine ⟨⟨by simp [rxSci3], by omega, by simp [rxSci3]⟩, rfl, ?_, rfl⟩
  intro h
  have := h none (some 1) rfl rfl
  simp at this

end DarkReuse

end Verif.Thm
