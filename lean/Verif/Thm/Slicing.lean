import Verif.Proof.Slicing

/-!
# C01-C04: work distribution
-/

namespace Verif.Thm

open Verif.Slicing

/-- Spec: the request consists of zeros only (the caller literally asks for zero cores). -/
def AsksForZero (s : List Char) : Prop := s ≠ [] ∧ ∀ c ∈ s, c = '0'

/-- C01: never more workers than chunks or cores, and at least one unless zero was asked for. -/
theorem C01_num_cores (s : List Char) (nchunks avail : Nat) :
    computeNumCores s nchunks avail ≤ nchunks ∧ computeNumCores s nchunks avail ≤ avail ∧
      (0 < nchunks → 0 < avail → (computeNumCores s nchunks avail = 0 ↔ AsksForZero s)) := by
  refine ⟨by simp only [computeNumCores]; omega, by simp only [computeNumCores]; omega, ?_⟩
  intro hn ha
  by_cases hnum : isNumeric s
  · have hs : s ≠ [] ∧ ∀ c ∈ s, c.isDigit = true := by
      simpa [isNumeric] using hnum
    have := toInt_foldl_eq_zero s hs.2 0
    have hz : computeNumCores s nchunks avail = 0 ↔ toInt s = 0 := by
      simp only [computeNumCores, hnum, if_true]; omega
    rw [hz, toInt, this]
    simp [AsksForZero, hs.1]
  · have hq : ¬ AsksForZero s := by
      rintro ⟨h1, h2⟩
      apply hnum
      simp only [isNumeric, Bool.and_eq_true, Bool.not_eq_true', List.isEmpty_eq_false_iff, List.all_eq_true]
      exact ⟨h1, fun c hc => by rw [h2 c hc]; rfl⟩
    simp only [hq, iff_false]
    have : ∀ a, 0 < orElse a 1 := by intro a; unfold orElse; split <;> omega
    have h4 := this (avail / 4)
    have h2 := this (avail / 2)
    simp only [computeNumCores, hnum]
    simp only [Bool.false_eq_true, if_false]
    split
    · omega
    · split
      · omega
      · split
        · omega
        · split <;> omega

example : computeNumCores "half".toList 100 8 = 4 ∧ computeNumCores "12".toList 5 8 = 5 ∧
    computeNumCores "quarter".toList 5 2 = 1 ∧ ¬ AsksForZero "half".toList ∧ AsksForZero "00".toList := by
  refine ⟨by decide, by decide, by decide, ?_, ?_⟩
  · rintro ⟨-, h⟩; exact absurd (h 'h' (by decide)) (by decide)
  · exact ⟨by decide, by decide⟩

/-- C01, the values: a number is used as such, `"half"` is half of the cores, `"quarter"` a quarter, `"all"` all of them, anything
else one; each at most the number of chunks. -/
theorem C01_num_cores_values (nchunks avail : Nat) (hn : 0 < nchunks) (ha : 0 < avail) :
    computeNumCores "all".toList nchunks avail = min nchunks avail ∧
    computeNumCores "half".toList nchunks avail = min nchunks (max 1 (avail / 2)) ∧
    computeNumCores "quarter".toList nchunks avail = min nchunks (max 1 (avail / 4)) ∧
    computeNumCores "none".toList nchunks avail = 1 ∧
    computeNumCores "None".toList nchunks avail = 1 := by
  refine ⟨?_, ?_, ?_, ?_, ?_⟩ <;>
    simp +decide only [computeNumCores, orElse, if_true, if_false] <;>
    first | omega | (split <;> omega)

example : computeNumCores "quarter".toList 7 16 = 4 := by decide

/-- C02: the ramp-fit slices, in order, contain every row exactly once; there are as many as asked for; and their heights
differ by at most one. -/
theorem C02_slices_tile {α : Type*} (rd : RampData α) (nslices : Nat) (hn : 0 < nslices) :
    let slices := (computeSlices rd nslices).1.map RampData.rows
    slices.flatten = rd.rows ∧ slices.length = nslices ∧
      (∀ a ∈ slices, ∀ b ∈ slices, a.length ≤ b.length + 1) ∧
      slices.map List.length = (computeSlices rd nslices).2 := by
  have hsum := rowsPerSlice_sum nslices rd.rows.length hn
  have hlens := sliceLoop_lengths rd (rowsPerSlice nslices rd.rows.length) 0 (by omega)
  have hl : ((computeSlices rd nslices).1.map RampData.rows).map List.length =
      rowsPerSlice nslices rd.rows.length := by
    rw [List.map_map]; exact hlens
  refine ⟨?_, ?_, ?_, hl⟩
  · show ((sliceLoop rd 0 (rowsPerSlice nslices rd.rows.length)).map RampData.rows).flatten = rd.rows
    rw [sliceLoop_flatten, hsum]; simp
  · have := congrArg List.length hl
    rw [List.length_map, rowsPerSlice_length _ _ hn] at this
    exact this
  · intro a ha b hb
    have h1 := rowsPerSlice_mem nslices rd.rows.length a.length (by rw [← hl]; exact List.mem_map_of_mem ha)
    have h2 := rowsPerSlice_mem nslices rd.rows.length b.length (by rw [← hl]; exact List.mem_map_of_mem hb)
    omega

example : (computeSlices (⟨List.range 10, false⟩ : RampData Nat) 4).1.map RampData.rows =
    [[0, 1, 2], [3, 4, 5], [6, 7], [8, 9]] := by decide

/-- C03 (partial): a sliced fit equals the single fit, also in the case where no product results, **provided one-group
suppression is off**.  Missing: with suppression on the slices do not know about it, see
`C03_sliced_fit_with_suppression_differs`. -/
theorem C03_sliced_fit_partial {α β : Type*} (zero : β) (fitRow : Bool → α → Option β) (rows : List α)
    (nslices : Nat) (hn : 0 < nslices) :
    fitMulti zero fitRow ⟨rows, false⟩ nslices = fitSingle fitRow ⟨rows, false⟩ := by
  set rd : RampData α := ⟨rows, false⟩ with hrd
  have hsum := rowsPerSlice_sum nslices rows.length hn
  set ns := rowsPerSlice nslices rows.length with hns
  have hflat := sliceLoop_flatten rd ns 0
  rw [hsum] at hflat
  simp only [hrd, List.drop_zero, List.take_length] at hflat
  have hsup := sliceLoop_suppress rd ns 0
  have hlens := sliceLoop_lengths rd ns 0 (by rw [hsum, hrd]; simp)
  have hpool : (sliceLoop rd 0 ns).map (fitSingle fitRow) =
      ((sliceLoop rd 0 ns).map RampData.rows).map (fun l => l.mapM (fitRow false)) := by
    rw [List.map_map]
    apply List.map_congr_left
    intro s hs
    simp [fitSingle, hsup s hs]
  have hR : fitSingle fitRow rd =
      (((sliceLoop rd 0 ns).map RampData.rows).mapM (fun l : List α => l.mapM (fitRow false))).map List.flatten := by
    rw [← mapM_option_flatten, hflat]; rfl
  have hM : ((sliceLoop rd 0 ns).map RampData.rows).mapM (fun l : List α => l.mapM (fitRow false)) =
      ((sliceLoop rd 0 ns).map (fitSingle fitRow)).mapM id := by
    rw [hpool]; conv_rhs => rw [List.mapM_map]
    rfl
  rw [hR, hM, mapM_eq_of_all_isSome]
  show assemble zero rows.length ((sliceLoop rd 0 ns).map (fitSingle fitRow)) ns = _
  unfold assemble
  by_cases hall : ((sliceLoop rd 0 ns).map (fitSingle fitRow)).all Option.isSome
  · rw [if_pos hall, if_pos hall]
    simp only [Option.map_some, Option.some.injEq]
    have hlen : (((sliceLoop rd 0 ns).map (fitSingle fitRow)).filterMap id).map List.length = ns := by
      rw [fit_lengths fitRow _ hall, hlens]
    rw [assembleLoop_eq _ _ _ _ hlen (by simp [hsum])]
    simp [hsum]
  · rw [if_neg hall, if_neg hall]; rfl

example : fitMulti 0 (fun _ (r : Nat) => some (r * r)) ⟨[1, 2, 3, 4, 5], false⟩ 3 = some [1, 4, 9, 16, 25] ∧
    fitMulti 0 (fun _ (r : Nat) => if r = 3 then none else some (r * r)) ⟨[1, 2, 3, 4, 5], false⟩ 3 = none := by
  decide

/-- C03, negation at full strength: with one-group suppression on there are a row-local fit and an input for which the
sliced and the single-process result differ. -/
theorem C03_sliced_fit_with_suppression_differs :
    ∃ (fitRow : Bool → Nat → Option Nat) (rows : List Nat),
      fitMulti 0 fitRow ⟨rows, true⟩ 2 ≠ fitSingle fitRow ⟨rows, true⟩ :=
  ⟨fun s r => some (if s then 0 else r), [7, 7], by decide⟩

/-- C04: the jump-detection slices are consecutive row ranges that contain every row exactly once, all but the last one of
the same height. -/
theorem C04_jump_slices_tile (nrows n : Nat) (hn : 0 < n) :
    let yinc := (jumpSliceRanges nrows n).1
    let ranges := (jumpSliceRanges nrows n).2
    (ranges.map (fun r => List.range' r.1 (r.2 - r.1))).flatten = List.range nrows ∧ ranges.length = n ∧
      (∀ r ∈ ranges.dropLast, r.2 = r.1 + yinc) ∧ ∀ r ∈ ranges, r.1 ≤ r.2 ∧ r.2 ≤ nrows := by
  set y := nrows / n with hy
  have hny : (n - 1) * y ≤ nrows := jump_ranges_prefix nrows n (n - 1) (by omega)
  have hpre : ∀ m, m * y ≤ nrows →
      (((List.range m).map (fun i => (i * y, (i + 1) * y))).map (fun r => List.range' r.1 (r.2 - r.1))).flatten =
        List.range (m * y) := by
    intro m hm
    induction m with
    | zero => simp
    | succ m ih =>
      rw [List.range_succ, List.map_append, List.map_append, List.flatten_append, ih (by nlinarith)]
      simp only [List.map_cons, List.map_nil, List.flatten_cons, List.flatten_nil, List.append_nil]
      rw [List.range_eq_range', List.range_eq_range']
      have : (m + 1) * y = m * y + y := by ring
      rw [this, Nat.add_sub_cancel_left, ← List.range'_append_1, Nat.zero_add]
  refine ⟨?_, ?_, ?_, ?_⟩
  · simp only [jumpSliceRanges, ← hy, List.map_append, List.flatten_append, hpre (n - 1) hny]
    simp only [List.map_cons, List.map_nil, List.flatten_cons, List.flatten_nil, List.append_nil]
    rw [List.range_eq_range', List.range_eq_range']
    conv_rhs => rw [show nrows = (n - 1) * y + (nrows - (n - 1) * y) by omega]
    rw [← List.range'_append_1, Nat.zero_add]
  · simp [jumpSliceRanges]; omega
  · intro r hr
    simp only [jumpSliceRanges, List.dropLast_concat, List.mem_map, List.mem_range] at hr
    obtain ⟨i, -, rfl⟩ := hr
    simp only [jumpSliceRanges]; ring
  · intro r hr
    simp only [jumpSliceRanges, ← hy, List.mem_append, List.mem_map, List.mem_range, List.mem_singleton] at hr
    rcases hr with ⟨i, hi, rfl⟩ | rfl
    · have := jump_ranges_prefix nrows n (i + 1) (by omega)
      refine ⟨Nat.mul_le_mul_right _ (by omega), this⟩
    · exact ⟨hny, le_rfl⟩

example : (jumpSliceRanges 10 4).2 = [(0, 2), (2, 4), (4, 6), (6, 10)] := by decide

/-- C04: writing back results cut at these ranges from a full array reproduces the full array, whatever was there. -/
theorem C04_jump_reassembly {β : Type*} (rows old : List β) (n : Nat) (hn : 0 < n) (hlen : old.length = rows.length) :
    jumpReassemble rows.length (jumpSliceRanges rows.length n).1
      ((jumpSliceRanges rows.length n).2.map (fun r => rowSlice rows r.1 (r.2 - r.1))) old = rows := by
  set y := rows.length / n with hy
  have hpre : ∀ k, k < n → k * y ≤ rows.length := jump_ranges_prefix rows.length n
  have hyr : (jumpSliceRanges rows.length n).1 = y := rfl
  rw [hyr]
  clear_value y
  -- after `k` slices the first `k*y` rows are in place
  have key : ∀ m k, k + m + 1 = n → ∀ out : List β, out.length = rows.length →
      out.take (k * y) = rows.take (k * y) →
      jumpReassembleLoop rows.length y k
        (((List.range m).map (fun i => rowSlice rows ((k + i) * y) y)) ++
          [rowSlice rows ((n - 1) * y) (rows.length - (n - 1) * y)]) out = rows := by
    intro m
    induction m with
    | zero =>
      intro k hk out hol htake
      have hkn : n - 1 = k := by omega
      have hky := hpre k (by omega)
      simp only [List.range_zero, List.map_nil, List.nil_append, jumpReassembleLoop, getSlice, hkn, rowSlice]
      have hd : out.drop (k * y + (rows.length - k * y)) = [] := List.drop_of_length_le (by omega)
      have ht : (rows.drop (k * y)).take (rows.length - k * y) = rows.drop (k * y) :=
        List.take_of_length_le (by simp)
      rw [htake, hd, List.append_nil, ht, List.take_append_drop]
    | succ m ih =>
      intro k hk out hol htake
      have hky := hpre (k + 1) (by omega)
      have hk1 : (k + 1) * y = k * y + y := by ring
      rw [List.range_succ_eq_map]
      simp only [List.map_cons, List.map_map, List.cons_append, Nat.add_zero]
      have hstep : ∀ l : List (List β), l ≠ [] → jumpReassembleLoop rows.length y k
          (rowSlice rows (k * y) y :: l) out =
          jumpReassembleLoop rows.length y (k + 1) l (getSlice out (rowSlice rows (k * y) y) (k * y) y) := by
        intro l hl
        cases l with
        | nil => exact absurd rfl hl
        | cons a l => rfl
      rw [hstep _ (by simp)]
      have hfun : ((fun i => rowSlice rows ((k + i) * y) y) ∘ Nat.succ) =
          (fun i => rowSlice rows ((k + 1 + i) * y) y) := by
        funext i; simp only [Function.comp, Nat.succ_eq_add_one]; congr 2; omega
      rw [hfun]
      apply ih (k + 1) (by omega)
      · rw [hk1] at hky
        simp only [getSlice, rowSlice, List.length_append, List.length_take, List.length_drop]
        rw [Nat.min_eq_left (by omega), Nat.min_eq_left (by omega)]
        omega
      · rw [hk1] at hky ⊢
        simp only [getSlice, rowSlice, htake]
        rw [← List.take_add, List.take_append_of_le_length (by rw [List.length_take]; omega), List.take_take,
          Nat.min_self]
  have hfin := key (n - 1) 0 (by omega) old hlen (by simp)
  unfold jumpReassemble
  have hfun : (fun r : Nat × Nat => rowSlice rows r.1 (r.2 - r.1)) ∘ (fun i => (i * y, (i + 1) * y)) =
      fun i => rowSlice rows ((0 + i) * y) y := by
    funext i
    have : (i + 1) * y - i * y = y := by rw [Nat.add_mul, Nat.one_mul, Nat.add_sub_cancel_left]
    simp only [Function.comp, Nat.zero_add, this]
  have hmap : (jumpSliceRanges rows.length n).2.map (fun r => rowSlice rows r.1 (r.2 - r.1)) =
      ((List.range (n - 1)).map (fun i => rowSlice rows ((0 + i) * y) y)) ++
          [rowSlice rows ((n - 1) * y) (rows.length - (n - 1) * y)] := by
    simp only [jumpSliceRanges, ← hy, List.map_append, List.map_map, List.map_cons, List.map_nil, hfun]
  rw [hmap]
  exact hfin

example : jumpReassemble 5 (jumpSliceRanges 5 2).1 [[1, 2], [3, 4, 5]] [0, 0, 0, 0, 0] = [1, 2, 3, 4, 5] := by decide

end Verif.Thm
