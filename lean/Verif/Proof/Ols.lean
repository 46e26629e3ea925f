import Verif.Model.Ols
import Mathlib.Data.List.Induction
import Mathlib.Tactic.Ring
import Mathlib.Tactic.Linarith

/-! # Lemmas about the segment computation -/

namespace Verif.Ols

open Verif.Dq

/-- `[s, e)` is a maximal run of good groups among `0 … n-1`. -/
def IsRun (good : Nat → Prop) (n s e : Nat) : Prop :=
  s < e ∧ e ≤ n ∧ (∀ i, s ≤ i → i < e → good i) ∧ (s = 0 ∨ ¬ good (s - 1)) ∧ (e = n ∨ ¬ good e)

/-- A run starting at `s` is extended to the left by a group flagged only as a jump. -/
def ext (jmp : Nat → Prop) [DecidablePred jmp] (s : Nat) : Nat := if 0 < s ∧ jmp (s - 1) then s - 1 else s

theorem ext_le (jmp : Nat → Prop) [DecidablePred jmp] (s : Nat) : ext jmp s ≤ s := by unfold ext; split <;> omega
theorem le_ext (jmp : Nat → Prop) [DecidablePred jmp] (s : Nat) : s ≤ ext jmp s + 1 := by unfold ext; split <;> omega

theorem addSeg_segs_ne (l : SegList) (h : l.size = l.segs.length) (s : Seg) :
    (addSeg l s).size = (addSeg l s).segs.length := by
  unfold addSeg
  split
  · exact h
  · cases hs : l.segs with
    | nil => simp
    | cons a t => simp [h, hs]

/-- What the list looks like after adding `raw` one by one. -/
structure AddInv (raw : List Seg) (l : SegList) : Prop where
  size : l.size = l.segs.length
  sub : l.segs.Sublist raw
  long : ∀ s ∈ raw, 2 ≤ s.len → s ∈ l.segs
  filt : l.segs.filter (fun s => decide (s.len ≠ 1)) = raw.filter (fun s => decide (s.len ≠ 1))
  maxPos : l.maxLen ≤ 1 → l.segs = raw
  maxShort : l.maxLen ≤ 1 ↔ ∀ s ∈ raw, s.len ≤ 1

theorem addInv_foldl (raw : List Seg) : AddInv raw (raw.foldl addSeg SegList.empty) := by
  induction raw using List.reverseRecOn with
  | nil => exact ⟨rfl, List.Sublist.refl _, by simp, rfl, fun _ => rfl, by simp [SegList.empty]⟩
  | append_singleton raw s ih =>
    rw [List.foldl_append, List.foldl_cons, List.foldl_nil]
    set l := raw.foldl addSeg SegList.empty with hl
    clear_value l
    obtain ⟨h1, h2, h3, h4, h5, h6⟩ := ih
    by_cases hc : s.len = 1 ∧ 1 < l.maxLen
    · have e : addSeg l s = l := by unfold addSeg; rw [if_pos hc]
      rw [e]
      refine ⟨h1, h2.trans (List.sublist_append_left _ _), fun x hx hx2 => ?_, ?_, fun h => ?_, ?_⟩
      · rcases List.mem_append.1 hx with hx | hx
        · exact h3 x hx hx2
        · rw [List.mem_singleton] at hx; subst hx; omega
      · rw [h4, List.filter_append]; simp [hc.1]
      · omega
      · constructor
        · intro h; omega
        · intro h; exact h6.2 fun x hx => h x (List.mem_append_left _ hx)
    · have e : (addSeg l s).segs = l.segs ++ [s] ∧ (addSeg l s).maxLen = if l.maxLen < s.len then s.len else l.maxLen := by
        unfold addSeg; rw [if_neg hc]; exact ⟨rfl, rfl⟩
      refine ⟨addSeg_segs_ne l h1 s, ?_, fun x hx hx2 => ?_, ?_, fun h => ?_, ?_⟩
      · rw [e.1]; exact h2.append_right [s]
      · rw [e.1, List.mem_append]
        exact (List.mem_append.1 hx).imp (fun hx => h3 x hx hx2) id
      · rw [e.1, List.filter_append, h4, ← List.filter_append]
      · rw [e.2] at h
        rw [e.1, h5 (by split at h <;> omega)]
      · rw [e.2]
        constructor
        · intro h x hx
          rcases List.mem_append.1 hx with hx | hx
          · exact h6.1 (by split at h <;> omega) x hx
          · rw [List.mem_singleton] at hx; subst hx; split at h <;> omega
        · intro h
          have a := h6.2 fun x hx => h x (List.mem_append_left _ hx)
          have b := h s (List.mem_append_right _ (List.mem_singleton.2 rfl))
          split <;> omega

/-- The pruned list in terms of the segments offered to the list. -/
theorem prune_foldl (raw : List Seg) (hpos : ∀ s ∈ raw, 1 ≤ s.len) :
    ((∃ s ∈ raw, 2 ≤ s.len) →
      (prune (raw.foldl addSeg SegList.empty)).segs = raw.filter fun s => decide (2 ≤ s.len))
    ∧ ((¬ ∃ s ∈ raw, 2 ≤ s.len) → (prune (raw.foldl addSeg SegList.empty)).segs = raw.take 1) := by
  obtain ⟨h1, h2, h3, h4, h5, h6⟩ := addInv_foldl raw
  set l := raw.foldl addSeg SegList.empty with hl
  clear_value l
  have hfc : raw.filter (fun s => decide (s.len ≠ 1)) = raw.filter fun s => decide (2 ≤ s.len) := by
    apply List.filter_congr
    intro s hs
    have := hpos s hs
    simp only [decide_eq_decide]
    omega
  constructor
  · rintro ⟨s, hs, hs2⟩
    have hm : ¬ l.maxLen ≤ 1 := fun h => by have := h6.1 h s hs; omega
    have hin := h3 s hs hs2
    unfold prune
    by_cases hsz : l.size < 2
    · rw [if_pos hsz]
      obtain ⟨x, hx⟩ : ∃ x, l.segs = [x] := by
        apply List.length_eq_one_iff.1
        have : 0 < l.segs.length := List.length_pos_of_mem hin
        omega
      rw [hx, List.mem_singleton] at hin
      subst hin
      rw [← hfc, ← h4, hx, List.filter_cons_of_pos (by simp; omega), List.filter_nil]
    · rw [if_neg hsz, if_neg (by omega), ← hfc]; exact h4
  · intro hn
    have hall : ∀ s ∈ raw, s.len ≤ 1 := by
      intro s hs
      by_contra hc
      exact hn ⟨s, hs, by omega⟩
    have hm := h6.2 hall
    have hr := h5 hm
    unfold prune
    by_cases hsz : l.size < 2
    · rw [if_pos hsz, hr, List.take_of_length_le]
      rw [← hr]; omega
    · rw [if_neg hsz, if_pos (by omega), ← hr]

section Loop
variable (good jmp : Nat → Prop) [DecidablePred good] [DecidablePred jmp]

/-- Loop body with the list of offered segments made explicit. -/
def rawStep (st : Bool × Nat × List Seg) (idx : Nat) : Bool × Nat × List Seg :=
  if good idx then
    if !st.1 then (true, ext jmp idx, st.2.2) else st
  else
    if st.1 then (false, st.2.1, st.2.2 ++ [⟨st.2.1, idx⟩]) else st

/-- Invariant of the explicit loop after `idx` groups. -/
structure RawInv (n idx : Nat) (st : Bool × Nat × List Seg) : Prop where
  mem : ∀ sg : Seg, sg ∈ st.2.2 ↔ ∃ s e, IsRun good n s e ∧ e < idx ∧ sg = ⟨ext jmp s, e⟩
  inn : st.1 = true → ∃ s, st.2.1 = ext jmp s ∧ s < idx ∧ (∀ i, s ≤ i → i < idx → good i) ∧ (s = 0 ∨ ¬ good (s - 1))
  out : st.1 = false → idx = 0 ∨ ¬ good (idx - 1)
  pw : st.2.2.Pairwise fun a b => a.stop ≤ b.start
  bef : st.1 = true → ∀ a ∈ st.2.2, a.stop ≤ st.2.1

theorem rawInv_step (n idx : Nat) (hidx : idx < n) (st : Bool × Nat × List Seg) (h : RawInv good jmp n idx st) :
    RawInv good jmp n (idx + 1) (rawStep good jmp st idx) := by
  obtain ⟨b, start, raw⟩ := st
  obtain ⟨hmem, hinn, hout, hpw, hbef⟩ := h
  simp only at hmem hinn hout hpw hbef
  unfold rawStep
  by_cases hg : good idx
  · rw [if_pos hg]
    -- no new closed run
    have hmem' : ∀ sg : Seg, sg ∈ raw ↔ ∃ s e, IsRun good n s e ∧ e < idx + 1 ∧ sg = ⟨ext jmp s, e⟩ := by
      intro sg
      rw [hmem]
      constructor
      · rintro ⟨s, e, h1, h2, h3⟩; exact ⟨s, e, h1, by omega, h3⟩
      · rintro ⟨s, e, h1, h2, h3⟩
        refine ⟨s, e, h1, ?_, h3⟩
        rcases Nat.lt_or_ge e idx with h | h
        · exact h
        · have : e = idx := by omega
          subst this
          rcases h1.2.2.2.2 with h' | h'
          · omega
          · exact absurd hg h'
    cases b with
    | true =>
      simp only [Bool.not_true, Bool.false_eq_true, if_false]
      refine ⟨hmem', fun _ => ?_, fun h => absurd h (by simp), hpw, hbef⟩
      obtain ⟨s, h1, h2, h3, h4⟩ := hinn rfl
      refine ⟨s, h1, by omega, fun i hi hi' => ?_, h4⟩
      rcases Nat.lt_or_ge i idx with h | h
      · exact h3 i hi h
      · have : i = idx := by omega
        subst this; exact hg
    | false =>
      simp only [Bool.not_false, if_true]
      refine ⟨hmem', fun _ => ⟨idx, rfl, by omega, fun i hi hi' => ?_, hout rfl⟩, fun h => absurd h (by simp), hpw,
        fun _ a ha => ?_⟩
      · have : i = idx := by omega
        subst this; exact hg
      · obtain ⟨s, e, h1, h2, rfl⟩ := (hmem a).1 ha
        have := le_ext jmp idx
        simp only; omega
  · rw [if_neg hg]
    cases b with
    | true =>
      simp only [if_true]
      obtain ⟨s, h1, h2, h3, h4⟩ := hinn rfl
      refine ⟨fun sg => ?_, fun h => absurd h (by simp), fun _ => Or.inr (by simpa using hg), ?_,
        fun h => absurd h (by simp)⟩
      · rw [List.mem_append, List.mem_singleton, hmem]
        constructor
        · rintro (⟨s', e, h1', h2', h3'⟩ | rfl)
          · exact ⟨s', e, h1', by omega, h3'⟩
          · exact ⟨s, idx, ⟨h2, by omega, h3, h4, Or.inr hg⟩, by omega, by rw [h1]⟩
        · rintro ⟨s', e, h1', h2', h3'⟩
          rcases Nat.lt_or_ge e idx with h | h
          · exact Or.inl ⟨s', e, h1', h, h3'⟩
          · right
            have he : e = idx := by omega
            subst he
            have hs : s' = s := by
              rcases Nat.lt_trichotomy s' s with hlt | heq | hgt
              · rcases h4 with h4 | h4
                · omega
                · exact absurd (h1'.2.2.1 (s - 1) (by omega) (by omega)) h4
              · exact heq
              · rcases h1'.2.2.2.1 with h5 | h5
                · omega
                · exact absurd (h3 (s' - 1) (by omega) (by have := h1'.1; omega)) h5
            rw [h3', hs, h1]
      · rw [List.pairwise_append]
        refine ⟨hpw, by simp, fun a ha b hb => ?_⟩
        rw [List.mem_singleton] at hb; subst hb
        exact hbef rfl a ha
    | false =>
      simp only [Bool.false_eq_true, if_false]
      refine ⟨fun sg => ?_, fun h => absurd h (by simp), fun _ => Or.inr (by simpa using hg), hpw,
        fun h => absurd h (by simp)⟩
      rw [hmem]
      constructor
      · rintro ⟨s, e, h1, h2, h3⟩; exact ⟨s, e, h1, by omega, h3⟩
      · rintro ⟨s, e, h1, h2, h3⟩
        refine ⟨s, e, h1, ?_, h3⟩
        rcases Nat.lt_or_ge e idx with h | h
        · exact h
        · have he : e = idx := by omega
          subst he
          exfalso
          have := h1.1
          rcases hout rfl with h5 | h5
          · omega
          · exact h5 (h1.2.2.1 (e - 1) (by omega) (by omega))

theorem rawInv_loop (n m : Nat) (hm : m ≤ n) :
    RawInv good jmp n m ((List.range m).foldl (rawStep good jmp) (false, 0, [])) := by
  induction m with
  | zero => exact ⟨by simp, by simp, by simp, by simp, by simp⟩
  | succ m ih =>
    rw [List.range_succ, List.foldl_append, List.foldl_cons, List.foldl_nil]
    exact rawInv_step good jmp n m (by omega) _ (ih (by omega))

/-- All offered segments. -/
def rawSegs (n : Nat) : List Seg :=
  let st := (List.range n).foldl (rawStep good jmp) (false, 0, [])
  if st.1 then st.2.2 ++ [⟨st.2.1, n⟩] else st.2.2

theorem rawSegs_spec (n : Nat) :
    (∀ sg : Seg, sg ∈ rawSegs good jmp n ↔ ∃ s e, IsRun good n s e ∧ sg = ⟨ext jmp s, e⟩)
    ∧ (rawSegs good jmp n).Pairwise fun a b => a.stop ≤ b.start := by
  have h := rawInv_loop good jmp n n le_rfl
  unfold rawSegs
  set st := (List.range n).foldl (rawStep good jmp) (false, 0, []) with hst
  clear_value st
  obtain ⟨b, start, raw⟩ := st
  obtain ⟨hmem, hinn, hout, hpw, hbef⟩ := h
  simp only at hmem hinn hout hpw hbef ⊢
  cases b with
  | true =>
    simp only [if_true]
    obtain ⟨s, h1, h2, h3, h4⟩ := hinn rfl
    constructor
    · intro sg
      rw [List.mem_append, List.mem_singleton, hmem]
      constructor
      · rintro (⟨s', e, h1', -, h3'⟩ | rfl)
        · exact ⟨s', e, h1', h3'⟩
        · exact ⟨s, n, ⟨h2, le_rfl, h3, h4, Or.inl rfl⟩, by rw [h1]⟩
      · rintro ⟨s', e, h1', h3'⟩
        rcases Nat.lt_or_ge e n with h | h
        · exact Or.inl ⟨s', e, h1', h, h3'⟩
        · right
          have he : e = n := by have := h1'.2.1; omega
          subst he
          have hs : s' = s := by
            rcases Nat.lt_trichotomy s' s with hlt | heq | hgt
            · rcases h4 with h4 | h4
              · omega
              · exact absurd (h1'.2.2.1 (s - 1) (by omega) (by omega)) h4
            · exact heq
            · rcases h1'.2.2.2.1 with h5 | h5
              · omega
              · exact absurd (h3 (s' - 1) (by omega) (by have := h1'.1; omega)) h5
          rw [h3', hs, h1]
    · rw [List.pairwise_append]
      refine ⟨hpw, by simp, fun a ha b hb => ?_⟩
      rw [List.mem_singleton] at hb; subst hb
      exact hbef rfl a ha
  | false =>
    simp only [Bool.false_eq_true, if_false]
    refine ⟨fun sg => ?_, hpw⟩
    rw [hmem]
    constructor
    · rintro ⟨s', e, h1', -, h3'⟩; exact ⟨s', e, h1', h3'⟩
    · rintro ⟨s', e, h1', h3'⟩
      refine ⟨s', e, h1', ?_, h3'⟩
      rcases Nat.lt_or_ge e n with h | h
      · exact h
      · exfalso
        have he : e = n := by have := h1'.2.1; omega
        subst he
        have := h1'.1
        rcases hout rfl with h5 | h5
        · omega
        · exact h5 (h1'.2.2.1 (e - 1) (by omega) (by omega))

end Loop

/-- Good group (no flag but PERSISTENCE) and jump-only group, as the C code tests them. -/
def goodG (fl : Flags) (g : List Nat) (i : Nat) : Prop := clear (g.getD i 0) fl.pers = 0
def jmpG (fl : Flags) (g : List Nat) (i : Nat) : Prop := clear (g.getD i 0) fl.pers = fl.jump

instance (fl : Flags) (g : List Nat) : DecidablePred (goodG fl g) := fun i => by unfold goodG; infer_instance
instance (fl : Flags) (g : List Nat) : DecidablePred (jmpG fl g) := fun i => by unfold jmpG; infer_instance

theorem segStep_raw (fl : Flags) (g : List Nat) (st : LoopSt) (rs : Bool × Nat × List Seg) (idx : Nat)
    (h1 : st.inSeg = rs.1) (h2 : st.start = rs.2.1) (h3 : st.lst = rs.2.2.foldl addSeg SegList.empty) :
    (segStep fl g st idx).inSeg = (rawStep (goodG fl g) (jmpG fl g) rs idx).1
    ∧ (segStep fl g st idx).start = (rawStep (goodG fl g) (jmpG fl g) rs idx).2.1
    ∧ (segStep fl g st idx).lst = (rawStep (goodG fl g) (jmpG fl g) rs idx).2.2.foldl addSeg SegList.empty := by
  obtain ⟨b, s, l⟩ := st
  obtain ⟨b', s', raw⟩ := rs
  simp only at h1 h2 h3
  subst h1 h2 h3
  unfold segStep rawStep
  by_cases hg : goodG fl g idx
  · have hg' : clear (g.getD idx 0) fl.pers = 0 := hg
    rw [if_pos hg', if_pos hg]
    cases b with
    | true => exact ⟨rfl, rfl, rfl⟩
    | false => exact ⟨rfl, rfl, rfl⟩
  · have hg' : ¬ clear (g.getD idx 0) fl.pers = 0 := hg
    rw [if_neg hg', if_neg hg]
    cases b with
    | true =>
      refine ⟨rfl, rfl, ?_⟩
      simp [List.foldl_append]
    | false => exact ⟨rfl, rfl, rfl⟩

theorem computeSegs_eq (fl : Flags) (g : List Nat) :
    computeSegs fl g = prune ((rawSegs (goodG fl g) (jmpG fl g) g.length).foldl addSeg SegList.empty) := by
  have key : ∀ m : Nat,
      ((List.range m).foldl (segStep fl g) ⟨false, 0, SegList.empty⟩).inSeg
        = ((List.range m).foldl (rawStep (goodG fl g) (jmpG fl g)) (false, 0, [])).1
      ∧ ((List.range m).foldl (segStep fl g) ⟨false, 0, SegList.empty⟩).start
        = ((List.range m).foldl (rawStep (goodG fl g) (jmpG fl g)) (false, 0, [])).2.1
      ∧ ((List.range m).foldl (segStep fl g) ⟨false, 0, SegList.empty⟩).lst
        = ((List.range m).foldl (rawStep (goodG fl g) (jmpG fl g)) (false, 0, [])).2.2.foldl addSeg SegList.empty := by
    intro m
    induction m with
    | zero => exact ⟨rfl, rfl, rfl⟩
    | succ m ih =>
      rw [List.range_succ, List.foldl_append, List.foldl_append, List.foldl_cons, List.foldl_nil, List.foldl_cons,
        List.foldl_nil]
      exact segStep_raw fl g _ _ m ih.1 ih.2.1 ih.2.2
  obtain ⟨h1, h2, h3⟩ := key g.length
  simp only [computeSegs, rawSegs]
  rw [h1]
  split
  · rw [h2, h3, List.foldl_append, List.foldl_cons, List.foldl_nil]
  · rw [h3]

end Verif.Ols
