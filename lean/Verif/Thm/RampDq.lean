import Verif.Model.RampDq
import Verif.Proof.Snowball
import Mathlib.Tactic.Ring
import Mathlib.Tactic.Linarith

/-! # DQ compression, group discarding and one-group suppression (C32, C33, C34) -/

namespace Verif.Thm

open Verif.Dq Verif.RampDq

/-! ## Helpers -/

theorem isSet_iff {d f : Nat} : isSet d f = true ↔ Has d f := by simp [isSet, Has]

theorem sum_indicator_eq_length {β : Type*} (p : β → Bool) (l : List β) :
    (l.map fun d => if p d then 1 else 0).sum = l.length ↔ ∀ d ∈ l, p d = true := by
  have hle : ∀ l : List β, (l.map fun d => if p d then 1 else 0).sum ≤ l.length := by
    intro l
    induction l with
    | nil => simp
    | cons a l ih => simp only [List.map_cons, List.sum_cons, List.length_cons]; split <;> omega
  induction l with
  | nil => simp
  | cons a l ih =>
    have := hle l
    simp only [List.map_cons, List.sum_cons, List.length_cons, List.forall_mem_cons]
    by_cases h : p a = true
    · simp only [h, if_true, true_and]
      exact ⟨fun h => ih.1 (by omega), fun h => by have := ih.2 h; omega⟩
    · simp only [h]
      constructor
      · intro h'; simp at h'; omega
      · rintro ⟨h', -⟩; exact absurd h' (by simp)

theorem setIfTotal_testBit (final : Nat) (dqs : List Nat) (flag setFlag i : Nat) :
    (setIfTotal final dqs flag setFlag).testBit i = true ↔
      final.testBit i = true ∨ (setFlag.testBit i = true ∧ ∀ d ∈ dqs, Has d flag) := by
  have key : (dqs.map fun d => if isSet d flag then 1 else 0).sum = dqs.length ↔ ∀ d ∈ dqs, Has d flag :=
    (sum_indicator_eq_length (fun d => isSet d flag) dqs).trans (forall₂_congr fun d _ => isSet_iff)
  unfold setIfTotal
  by_cases h : ∀ d ∈ dqs, Has d flag
  · rw [if_pos (key.2 h), Nat.testBit_or]
    simp only [Bool.or_eq_true]
    exact ⟨fun h' => h'.imp id fun x => ⟨x, h⟩, fun h' => h'.imp id fun x => x.1⟩
  · rw [if_neg (fun h' => h (key.1 h'))]
    exact ⟨Or.inl, fun h' => h'.elim id fun x => absurd x.2 h⟩

theorem sum_and_pos (l : List Nat) (f : Nat) : 0 < (l.map fun d => d &&& f).sum ↔ ∃ d ∈ l, Has d f := by
  induction l with
  | nil => simp
  | cons a l ih =>
    simp only [List.map_cons, List.sum_cons, List.exists_mem_cons_iff]
    rw [← ih]
    unfold Has
    omega

theorem sub_flag_eq_clear {d b : Nat} (h : Has d (2 ^ b)) : d - 2 ^ b = clear d (2 ^ b) := by
  have hd : d.testBit b = true := by
    obtain ⟨i, h1, h2⟩ := has_iff.1 h
    rw [Nat.testBit_two_pow] at h2
    simp at h2; subst h2; exact h1
  have hz : clear d (2 ^ b) &&& 2 ^ b = 0 := by
    apply Nat.eq_of_testBit_eq
    intro i
    rw [Nat.testBit_and, testBit_clear]
    simp
  have hs : clear d (2 ^ b) ||| 2 ^ b = d := by
    apply Nat.eq_of_testBit_eq
    intro i
    rw [Nat.testBit_or, testBit_clear, Nat.testBit_two_pow]
    by_cases hi : b = i
    · subst hi; simp [hd]
    · simp [hi]
  have := Verif.Snowball.add_eq_or _ _ hz
  omega

/-! ## C32 -/

/-- Compression of one integration: each bit of the result is set exactly when it was set before, or it belongs
to DO_NOT_USE and all groups are saturated or unusable, or it belongs to SATURATED (JUMP_DET) and some group has
that flag. -/
theorem C32_compress_integration (dnu sat jump : Nat) (gdq : List Nat) (pixeldq i : Nat) :
    (compressSect dnu sat jump gdq pixeldq).testBit i = true ↔
      pixeldq.testBit i = true
      ∨ (dnu.testBit i = true ∧ ∀ g ∈ gdq, Has g sat ∨ Has g dnu)
      ∨ (sat.testBit i = true ∧ ∃ g ∈ gdq, Has g sat)
      ∨ (jump.testBit i = true ∧ ∃ g ∈ gdq, Has g jump) := by
  simp only [compressSect]
  set p1 := setIfTotal pixeldq gdq (sat ||| dnu) dnu with hp1
  have h1 := setIfTotal_testBit pixeldq gdq (sat ||| dnu) dnu i
  simp only [has_or_right] at h1
  rw [← hp1] at h1
  clear_value p1
  set p2 := if 0 < (gdq.map fun d => d &&& sat).sum then p1 ||| sat else p1 with hp2
  have h2 : p2.testBit i = true ↔ p1.testBit i = true ∨ (sat.testBit i = true ∧ ∃ g ∈ gdq, Has g sat) := by
    rw [hp2]
    by_cases h : ∃ g ∈ gdq, Has g sat
    · rw [if_pos ((sum_and_pos _ _).2 h), Nat.testBit_or, Bool.or_eq_true]; simp only [h, and_true]
    · rw [if_neg (fun h' => h ((sum_and_pos _ _).1 h'))]; simp only [h, and_false, or_false]
  clear_value p2
  by_cases h : ∃ g ∈ gdq, Has g jump
  · rw [if_pos ((sum_and_pos _ _).2 h), Nat.testBit_or, Bool.or_eq_true, h2, h1]
    simp only [h, and_true, or_assoc]
  · rw [if_neg (fun h' => h ((sum_and_pos _ _).1 h')), h2, h1]
    simp only [h, and_false, or_false, or_assoc]

/-- The three flag-level readings of the previous theorem, for flags with no common bit. -/
theorem C32_compress_integration_flags (dnu sat jump : Nat) (hd : dnu ≠ 0) (hs : sat ≠ 0) (hj : jump ≠ 0)
    (hds : ¬ Has dnu sat) (hdj : ¬ Has dnu jump) (hsj : ¬ Has sat jump) (gdq : List Nat) (pixeldq : Nat) :
    (Has (compressSect dnu sat jump gdq pixeldq) dnu ↔ Has pixeldq dnu ∨ ∀ g ∈ gdq, Has g sat ∨ Has g dnu)
    ∧ (Has (compressSect dnu sat jump gdq pixeldq) sat ↔ Has pixeldq sat ∨ ∃ g ∈ gdq, Has g sat)
    ∧ (Has (compressSect dnu sat jump gdq pixeldq) jump ↔ Has pixeldq jump ∨ ∃ g ∈ gdq, Has g jump) := by
  have ex : ∀ f : Nat, f ≠ 0 → ∃ i, f.testBit i = true := fun f hf => Nat.exists_testBit_of_ne_zero hf
  rw [not_has_iff] at hds hdj hsj
  refine ⟨?_, ?_, ?_⟩
  · constructor
    · intro h
      obtain ⟨i, h1, h2⟩ := has_iff.1 h
      rcases (C32_compress_integration _ _ _ _ _ _).1 h1 with h | h | h | h
      · exact Or.inl (has_iff.2 ⟨i, h, h2⟩)
      · exact Or.inr h.2
      · rw [hds i h2] at h; exact absurd h.1 (by simp)
      · rw [hdj i h2] at h; exact absurd h.1 (by simp)
    · rintro (h | h)
      · obtain ⟨i, h1, h2⟩ := has_iff.1 h
        exact has_iff.2 ⟨i, (C32_compress_integration _ _ _ _ _ _).2 (Or.inl h1), h2⟩
      · obtain ⟨i, hi⟩ := ex _ hd
        exact has_iff.2 ⟨i, (C32_compress_integration _ _ _ _ _ _).2 (Or.inr (Or.inl ⟨hi, h⟩)), hi⟩
  · constructor
    · intro h
      obtain ⟨i, h1, h2⟩ := has_iff.1 h
      rcases (C32_compress_integration _ _ _ _ _ _).1 h1 with h | h | h | h
      · exact Or.inl (has_iff.2 ⟨i, h, h2⟩)
      · rw [hds i h.1] at h2; exact absurd h2 (by simp)
      · exact Or.inr h.2
      · rw [hsj i h2] at h; exact absurd h.1 (by simp)
    · rintro (h | h)
      · obtain ⟨i, h1, h2⟩ := has_iff.1 h
        exact has_iff.2 ⟨i, (C32_compress_integration _ _ _ _ _ _).2 (Or.inl h1), h2⟩
      · obtain ⟨i, hi⟩ := ex _ hs
        exact has_iff.2 ⟨i, (C32_compress_integration _ _ _ _ _ _).2 (Or.inr (Or.inr (Or.inl ⟨hi, h⟩))), hi⟩
  · constructor
    · intro h
      obtain ⟨i, h1, h2⟩ := has_iff.1 h
      rcases (C32_compress_integration _ _ _ _ _ _).1 h1 with h | h | h | h
      · exact Or.inl (has_iff.2 ⟨i, h, h2⟩)
      · rw [hdj i h.1] at h2; exact absurd h2 (by simp)
      · rw [hsj i h.1] at h2; exact absurd h2 (by simp)
      · exact Or.inr h.2
    · rintro (h | h)
      · obtain ⟨i, h1, h2⟩ := has_iff.1 h
        exact has_iff.2 ⟨i, (C32_compress_integration _ _ _ _ _ _).2 (Or.inl h1), h2⟩
      · obtain ⟨i, hi⟩ := ex _ hj
        exact has_iff.2 ⟨i, (C32_compress_integration _ _ _ _ _ _).2 (Or.inr (Or.inr (Or.inr ⟨hi, h⟩))), hi⟩

example : compressSect 1 2 4 [2, 1, 6] 8 = 15 ∧ compressSect 1 2 4 [0, 1, 4] 8 = 12 := by decide

/-- Compression of the integrations: a bit outside DO_NOT_USE is the OR over the integrations; a DO_NOT_USE bit
survives only if every integration is flagged. -/
theorem C32_compress_final (dnu : Nat) (dqInt : List Nat) (hne : dqInt ≠ []) :
    ∃ v, compressFinal dnu dqInt = some v ∧ ∀ i,
      (v.testBit i = true ↔
        if dnu.testBit i = true then ∀ d ∈ dqInt, Has d dnu else ∃ d ∈ dqInt, d.testBit i = true) := by
  obtain ⟨d0, ds, rfl⟩ : ∃ d0 ds, dqInt = d0 :: ds := List.exists_cons_of_ne_nil hne
  refine ⟨_, rfl, fun i => ?_⟩
  have hfold : ∀ (ds : List Nat) (a : Nat), (ds.foldl (fun acc d => acc ||| d) a).testBit i = true ↔
      a.testBit i = true ∨ ∃ d ∈ ds, d.testBit i = true := by
    intro ds
    induction ds with
    | nil => simp
    | cons x xs ih =>
      intro a
      rw [List.foldl_cons, ih, Nat.testBit_or, Bool.or_eq_true, List.exists_mem_cons_iff, or_assoc]
  rw [setIfTotal_testBit, testBit_clear, Bool.and_eq_true, hfold, List.exists_mem_cons_iff]
  by_cases hd : dnu.testBit i = true
  · simp [hd]
  · simp [hd]

example : compressFinal 1 [3, 5, 9] = some 15 ∧ compressFinal 1 [3, 4, 9] = some 14 := by decide

/-! ## C33 -/

/-- A group that is unusable in every pixel of every integration. -/
def DeadGroup (dnu : Nat) (g : List Nat) : Prop := ∀ d ∈ g, Has d dnu

instance (dnu : Nat) (g : List Nat) : Decidable (DeadGroup dnu g) := by unfold DeadGroup Has; infer_instance

/-- `k` is the number of leading dead groups. -/
def LeadCount (dnu : Nat) (gdq : List (List Nat)) (k : Nat) : Prop :=
  k ≤ gdq.length ∧ (∀ (i : Nat) (h : i < gdq.length), i < k → DeadGroup dnu gdq[i])
    ∧ ∀ h : k < gdq.length, ¬ DeadGroup dnu gdq[k]

/-- Number of groups left after dropping `k` leading groups and one dead trailing group. -/
def keptCount (dnu : Nat) (gdq : List (List Nat)) (k : Nat) : Nat :=
  match gdq.getLast? with
  | none => 0
  | some g => if k < gdq.length ∧ DeadGroup dnu g then gdq.length - k - 1 else gdq.length - k

theorem allDnu_iff {dnu : Nat} {g : List Nat} : allDnu dnu g = true ↔ DeadGroup dnu g := by
  simp [allDnu, DeadGroup, isSet_iff]

theorem clearJump_eq {b : Nat} (g : List Nat) : clearJump (2 ^ b) g = g.map fun d => clear d (2 ^ b) := by
  unfold clearJump
  apply List.map_congr_left
  intro d _
  by_cases h : Has d (2 ^ b)
  · rw [if_pos (isSet_iff.2 h)]; exact sub_flag_eq_clear h
  · rw [if_neg (fun h' => h (isSet_iff.1 h'))]
    unfold Has at h
    push Not at h
    simp [clear, h]

theorem dead_clearJump {dnu b : Nat} (hdj : ¬ Has dnu (2 ^ b)) (g : List Nat) :
    DeadGroup dnu (clearJump (2 ^ b) g) ↔ DeadGroup dnu g := by
  rw [clearJump_eq]
  unfold DeadGroup
  simp only [List.mem_map, forall_exists_index, and_imp, forall_apply_eq_imp_iff₂]
  refine forall₂_congr fun d _ => ?_
  rw [has_iff, has_iff]
  rw [not_has_iff] at hdj
  refine exists_congr fun i => ?_
  rw [testBit_clear, Bool.and_eq_true]
  constructor
  · rintro ⟨⟨h1, -⟩, h2⟩; exact ⟨h1, h2⟩
  · rintro ⟨h1, h2⟩; exact ⟨⟨h1, by rw [hdj i h2]; rfl⟩, h2⟩

theorem stripLeading_spec {dnu b : Nat} (hdj : ¬ Has dnu (2 ^ b)) (gdq : List (List Nat)) (k n0 : Nat)
    (hk : LeadCount dnu gdq k) :
    (k = gdq.length → stripLeading dnu (2 ^ b) n0 gdq = none)
    ∧ (∀ h : k < gdq.length, stripLeading dnu (2 ^ b) n0 gdq =
        some (n0 + k, (if 0 < k then clearJump (2 ^ b) gdq[k] else gdq[k]) :: gdq.drop (k + 1))) := by
  induction k generalizing gdq n0 with
  | zero =>
    refine ⟨fun h => ?_, fun h => ?_⟩
    · have : gdq = [] := List.eq_nil_of_length_eq_zero h.symm
      subst this; simp [stripLeading]
    · cases gdq with
      | nil => simp at h
      | cons g rest =>
        have hn : ¬ DeadGroup dnu g := hk.2.2 h
        rw [stripLeading.eq_def]; simp only [if_neg (fun h' => hn (allDnu_iff.1 h'))]
        simp
  | succ k ih =>
    cases gdq with
    | nil => exact absurd hk.1 (by simp)
    | cons g rest =>
      have hg : DeadGroup dnu g := hk.2.1 0 (by simp) (by omega)
      cases rest with
      | nil =>
        have : k = 0 := by have := hk.1; simp at this; exact this
        subst this
        refine ⟨fun _ => ?_, fun h => absurd h (by simp)⟩
        rw [stripLeading, if_pos (allDnu_iff.2 hg)]
      | cons g' rest' =>
        have hk' : LeadCount dnu (clearJump (2 ^ b) g' :: rest') k := by
          refine ⟨by have := hk.1; simp at this ⊢; omega, fun i h hik => ?_, fun h => ?_⟩
          · have := hk.2.1 (i + 1) (by simp at h ⊢; omega) (by omega)
            cases i with
            | zero => exact (dead_clearJump hdj g').2 this
            | succ i => exact this
          · have := hk.2.2 (by simp at h ⊢; omega)
            cases k with
            | zero => exact fun h' => this ((dead_clearJump hdj g').1 h')
            | succ k => exact this
        have := ih (clearJump (2 ^ b) g' :: rest') (n0 + 1) hk'
        have e : stripLeading dnu (2 ^ b) n0 (g :: g' :: rest')
            = stripLeading dnu (2 ^ b) (n0 + 1) (clearJump (2 ^ b) g' :: rest') := by
          rw [stripLeading, if_pos (allDnu_iff.2 hg)]
        rw [e]
        refine ⟨fun h => this.1 (by simp at h ⊢; omega), fun h => ?_⟩
        rw [this.2 (by simp at h ⊢; omega)]
        cases k with
        | zero => simp
        | succ k => simp [Nat.add_comm, Nat.add_left_comm]

/-- Discarding: with `k` leading dead groups and `m` groups left after also dropping one dead trailing group,
discarding fails exactly when `m < 2`; otherwise the result is the `m` groups from `k` on, with their data and
original DQ, unchanged except that JUMP_DET is cleared in the first kept group if some group before it was
dropped. -/
theorem C33_discard_exact {δ : Type*} (dnu b : Nat) (hdj : ¬ Has dnu (2 ^ b)) (data : List δ)
    (gdq : List (List Nat)) (orig : Option (List (List Nat))) (hlen : data.length = gdq.length)
    (hol : ∀ o ∈ orig, o.length = gdq.length) (k : Nat) (hk : LeadCount dnu gdq k) :
    (keptCount dnu gdq k < 2 → discardGroups dnu (2 ^ b) data gdq orig = none)
    ∧ (2 ≤ keptCount dnu gdq k → ∃ q, discardGroups dnu (2 ^ b) data gdq orig
          = some ((data.drop k).take (keptCount dnu gdq k), q,
              orig.map fun o => (o.drop k).take (keptCount dnu gdq k))
        ∧ q.length = keptCount dnu gdq k
        ∧ ∀ (j : Nat) (hj : j < q.length) (hj' : k + j < gdq.length),
            q[j] = if 0 < k ∧ j = 0 then (gdq[k + j]).map (fun d => clear d (2 ^ b)) else gdq[k + j]) := by
  have hs := stripLeading_spec (b := b) hdj gdq k 0 hk
  have hkl := hk.1
  rcases Nat.lt_or_ge k gdq.length with hlt | hge
  · have hs := hs.2 hlt
    have hne : gdq ≠ [] := by intro h; subst h; simp at hlt
    obtain ⟨gl, hgl⟩ : ∃ gl, gdq.getLast? = some gl := ⟨_, List.getLast?_eq_some_getLast hne⟩
    set q := (if 0 < k then clearJump (2 ^ b) gdq[k] else gdq[k]) :: gdq.drop (k + 1) with hq
    have hqlen : q.length = gdq.length - k := by simp [hq]; omega
    have hqget : ∀ (j : Nat) (hj : j < q.length) (hj' : k + j < gdq.length),
        q[j] = if 0 < k ∧ j = 0 then (gdq[k + j]).map (fun d => clear d (2 ^ b)) else gdq[k + j] := by
      intro j hj hj'
      cases j with
      | zero => by_cases h0 : 0 < k <;> simp [hq, h0, clearJump_eq]
      | succ j =>
        simp only [hq, List.getElem_cons_succ, List.getElem_drop]
        have e : k + 1 + j = k + (j + 1) := by omega
        simp only [e, Nat.add_eq_zero_iff, one_ne_zero, and_false, if_false]
    -- last group of `q` is dead iff last group of `gdq` is
    have hqne : q ≠ [] := by simp [hq]
    have hlast : ∃ ql, q.getLast? = some ql ∧ (DeadGroup dnu ql ↔ DeadGroup dnu gl) := by
      refine ⟨q.getLast hqne, List.getLast?_eq_some_getLast hqne, ?_⟩
      have e1 : q.getLast hqne = q[q.length - 1]'(by omega) := List.getLast_eq_getElem hqne
      have e2 : gl = gdq[gdq.length - 1]'(by omega) := by
        have := List.getLast?_eq_some_getLast hne
        rw [hgl] at this
        rw [Option.some.inj this, List.getLast_eq_getElem]
      have e3 := hqget (q.length - 1) (by omega) (by omega)
      have e4 : gdq[k + (q.length - 1)]'(by omega) = gl := by
        rw [e2]; congr 1; omega
      rw [e1, e3, e4]
      split
      · rw [← clearJump_eq]; exact dead_clearJump hdj gl
      · exact Iff.rfl
    obtain ⟨ql, hql, hdead⟩ := hlast
    clear_value q
    have hgd : keptCount dnu gdq k = if DeadGroup dnu gl then gdq.length - k - 1 else gdq.length - k := by
      unfold keptCount
      simp only [hgl, hlt, true_and]
    have htd : data.drop k = (data.drop k).take (gdq.length - k) := by
      rw [List.take_of_length_le]; simp [hlen]
    have hto : (orig.map fun o => o.drop k) = orig.map fun o => (o.drop k).take (gdq.length - k) := by
      cases orig with
      | none => rfl
      | some o =>
        have := hol o rfl
        simp only [Option.map_some]
        rw [List.take_of_length_le]; simp [this]
    by_cases hd : DeadGroup dnu gl
    · have had : allDnu dnu ql = true := allDnu_iff.2 (hdead.2 hd)
      rw [if_pos hd] at hgd
      have hkq : q.length - 1 = keptCount dnu gdq k := by rw [hgd, hqlen]
      constructor
      · intro hlt2
        simp only [discardGroups, hs, hql, had, if_true]
        split
        · rfl
        · rw [if_pos (by rw [hkq]; exact hlt2)]
      · intro hge2
        refine ⟨q.dropLast, ?_, ?_, ?_⟩
        · simp only [discardGroups, hs, hql, had, if_true]
          rw [hkq, if_neg (by omega), if_neg (by omega)]
          have e1 : (data.drop (0 + k)).dropLast = (data.drop k).take (keptCount dnu gdq k) := by
            rw [List.dropLast_eq_take, hgd, Nat.zero_add]; congr 1; simp [hlen]
          have e2 : ((orig.map fun o => o.drop (0 + k)).map fun o => o.dropLast)
              = orig.map fun o => (o.drop k).take (keptCount dnu gdq k) := by
            cases orig with
            | none => rfl
            | some o =>
              have := hol o rfl
              simp only [Option.map_some]
              rw [List.dropLast_eq_take, hgd, Nat.zero_add]; congr 2; simp [this]
          rw [e1, e2]
        · rw [List.length_dropLast]; omega
        · intro j hj hj'
          rw [List.getElem_dropLast]
          exact hqget j _ hj'
    · have had : ¬ allDnu dnu ql = true := fun h => hd (hdead.1 (allDnu_iff.1 h))
      rw [if_neg hd] at hgd
      constructor
      · intro hlt2
        simp only [discardGroups, hs, hql, had]
        simp only [Bool.false_eq_true, if_false]
        split
        · rfl
        · rw [if_pos (by omega)]
      · intro hge2
        refine ⟨q, ?_, by omega, hqget⟩
        simp only [discardGroups, hs, hql, had]
        simp only [Bool.false_eq_true, if_false]
        rw [if_neg (by omega), if_neg (by omega), Nat.zero_add, hgd, ← htd, ← hto]
  · have hkeq : k = gdq.length := by omega
    have hs := hs.1 hkeq
    constructor
    · intro _; simp only [discardGroups, hs]
    · intro h
      exfalso
      unfold keptCount at h
      revert h
      split
      · omega
      · split <;> omega

/-- Consequence: when leading groups were dropped, no pixel of the first kept group carries JUMP_DET. -/
theorem C33_first_kept_has_no_jump {δ : Type*} (dnu b : Nat) (hdj : ¬ Has dnu (2 ^ b)) (data : List δ)
    (gdq : List (List Nat)) (orig : Option (List (List Nat))) (hlen : data.length = gdq.length)
    (hol : ∀ o ∈ orig, o.length = gdq.length) (k : Nat) (hk : LeadCount dnu gdq k) (h0 : 0 < k)
    (data' : List δ) (q : List (List Nat)) (orig' : Option (List (List Nat)))
    (h : discardGroups dnu (2 ^ b) data gdq orig = some (data', q, orig')) :
    ∃ g, q.head? = some g ∧ ∀ d ∈ g, ¬ Has d (2 ^ b) := by
  obtain ⟨h1, h2⟩ := C33_discard_exact dnu b hdj data gdq orig hlen hol k hk
  rcases Nat.lt_or_ge (keptCount dnu gdq k) 2 with hlt | hge
  · rw [h1 hlt] at h; exact absurd h (by simp)
  · obtain ⟨q', h3, h4, h5⟩ := h2 hge
    rw [h3] at h
    obtain ⟨-, rfl, -⟩ : _ ∧ q' = q ∧ _ := by simpa using h
    have hle : keptCount dnu gdq k ≤ gdq.length - k := by
      unfold keptCount; split
      · omega
      · split <;> omega
    have hq0 : 0 < q'.length := by omega
    refine ⟨q'[0], by rw [List.head?_eq_getElem?, List.getElem?_eq_getElem hq0], ?_⟩
    rw [h5 0 hq0 (by omega), if_pos ⟨h0, rfl⟩]
    intro d hd
    obtain ⟨x, -, rfl⟩ := List.mem_map.1 hd
    rw [not_has_iff]
    intro i hi
    rw [testBit_clear, Bool.and_eq_true] at hi
    simpa using hi.2

example : discardGroups 1 4 ["a", "b", "c", "d", "e"] [[1, 1], [1, 5], [4, 0], [0, 4], [1, 3]] none
    = some (["c", "d"], [[0, 0], [0, 4]], none) := by decide +kernel
example : LeadCount 1 [[1, 1], [1, 5], [4, 0], [0, 4], [1, 3]] 2
    ∧ keptCount 1 [[1, 1], [1, 5], [4, 0], [0, 4], [1, 3]] 2 = 2 := by
  unfold LeadCount keptCount; decide +kernel

/-- Without a dropped leading group the jump flags of the first group stay. -/
theorem C33_jump_kept_when_nothing_dropped :
    discardGroups 1 4 ["a", "b"] [[4, 0], [0, 4]] none = some (["a", "b"], [[4, 0], [0, 4]], none) := by decide +kernel

/-! ## C34 -/

/-- A group is usable when it has no flag besides PERSISTENCE. -/
def FitUsable (pers d : Nat) : Prop := ∀ i, d.testBit i = true → pers.testBit i = true

theorem fitUsable_iff {pers d : Nat} : FitUsable pers d ↔ clear d pers = 0 := by
  constructor
  · intro h
    apply Nat.eq_of_testBit_eq
    intro i
    rw [testBit_clear, Nat.zero_testBit]
    have := h i
    cases h1 : d.testBit i <;> simp_all
  · intro h i hi
    have : (clear d pers).testBit i = false := by rw [h, Nat.zero_testBit]
    rw [testBit_clear, hi] at this
    simpa using this

theorem sum_indicator_eq_one (p : Nat → Prop) [DecidablePred p] (l : List Nat) :
    (l.map fun d => if p d then 1 else 0).sum = 1 ↔
      ∃ j, (∃ h : j < l.length, p l[j]) ∧ ∀ j', (∃ h : j' < l.length, p l[j']) → j' = j := by
  have hz : ∀ l : List Nat, (l.map fun d => if p d then 1 else 0).sum = 0 ↔ ∀ d ∈ l, ¬ p d := by
    intro l
    induction l with
    | nil => simp
    | cons a l ih =>
      simp only [List.map_cons, List.sum_cons, List.forall_mem_cons, Nat.add_eq_zero_iff, ih]
      refine and_congr_left fun _ => ?_
      by_cases h : p a <;> simp [h]
  induction l with
  | nil => simp
  | cons a l ih =>
    simp only [List.map_cons, List.sum_cons]
    by_cases h : p a
    · rw [if_pos h]
      have e : 1 + (l.map fun d => if p d then 1 else 0).sum = 1 ↔ (l.map fun d => if p d then 1 else 0).sum = 0 := by
        omega
      rw [e, hz]
      constructor
      · intro hn
        refine ⟨0, ⟨by simp, h⟩, fun j' hj' => ?_⟩
        obtain ⟨h1, h2⟩ := hj'
        cases j' with
        | zero => rfl
        | succ j' => exact absurd h2 (hn _ (List.getElem_mem _))
      · rintro ⟨j, -, hu⟩ d hd hp
        obtain ⟨i, hi, rfl⟩ := List.getElem_of_mem hd
        have h1 := hu 0 ⟨by simp, h⟩
        have h2 := hu (i + 1) ⟨by simpa using hi, by simpa using hp⟩
        omega
    · rw [if_neg h, Nat.zero_add]
      refine Iff.trans ih ?_
      constructor
      · rintro ⟨j, ⟨hj, hp⟩, hu⟩
        refine ⟨j + 1, ⟨by simpa using hj, by simpa using hp⟩, fun j' hj' => ?_⟩
        obtain ⟨h1, h2⟩ := hj'
        cases j' with
        | zero => exact absurd h2 h
        | succ j' => rw [hu j' ⟨by simpa using h1, by simpa using h2⟩]
      · rintro ⟨j, ⟨hj, hp⟩, hu⟩
        cases j with
        | zero => exact absurd hp h
        | succ j =>
          refine ⟨j, ⟨by simpa using hj, by simpa using hp⟩, fun j' hj' => ?_⟩
          obtain ⟨h1, h2⟩ := hj'
          have := hu (j' + 1) ⟨by simpa using h1, by simpa using h2⟩
          omega

/-- Suppression of one ramp: with exactly one usable group every group gains DO_NOT_USE, otherwise nothing
changes. -/
theorem C34_suppression_exact (dnu pers : Nat) (gdq : List Nat) :
    ((∃ j, (∃ h : j < gdq.length, FitUsable pers gdq[j]) ∧ ∀ j', (∃ h : j' < gdq.length, FitUsable pers gdq[j']) → j' = j)
        → suppressOne dnu pers gdq = gdq.map fun d => d ||| dnu)
    ∧ ((¬ ∃ j, (∃ h : j < gdq.length, FitUsable pers gdq[j]) ∧ ∀ j', (∃ h : j' < gdq.length, FitUsable pers gdq[j']) → j' = j)
        → suppressOne dnu pers gdq = gdq) := by
  simp only [fitUsable_iff, suppressOne]
  have := sum_indicator_eq_one (fun d => clear d pers = 0) gdq
  constructor
  · intro h; rw [if_pos (this.2 h)]
  · intro h; rw [if_neg (fun h' => h (this.1 h'))]

/-- From the public entry point: no suppression without request or for one-group exposures; with it every ramp is
treated separately; no bit is ever cleared and no usable group appears; and a suppressed cube has no ramp with
exactly one usable group. -/
theorem C34_suppression_entry (dnu pers ngroups : Nat) (hdp : ∃ i, dnu.testBit i = true ∧ pers.testBit i = false)
    (cube : List (List Nat)) :
    suppressFromRampFit dnu pers ngroups false cube = cube
    ∧ suppressFromRampFit dnu pers 1 true cube = cube
    ∧ (ngroups ≠ 1 → ∀ j : Nat, (suppressFromRampFit dnu pers ngroups true cube)[j]? =
          (cube[j]?).map (suppressOne dnu pers))
    ∧ (∀ g : List Nat, (suppressOne dnu pers g).length = g.length ∧ ∀ (j : Nat) (h : j < g.length)
          (h' : j < (suppressOne dnu pers g).length), Sub g[j] (suppressOne dnu pers g)[j])
    ∧ (ngroups ≠ 1 → ∀ g ∈ suppressFromRampFit dnu pers ngroups true cube,
          ¬ ∃ j, (∃ h : j < g.length, FitUsable pers g[j]) ∧ ∀ j', (∃ h : j' < g.length, FitUsable pers g[j']) → j' = j) := by
  refine ⟨rfl, rfl, fun hn j => ?_, fun g => ?_, fun hn g hg => ?_⟩
  · simp [suppressFromRampFit, hn]
  · unfold suppressOne
    split
    · refine ⟨by simp, fun j h h' => ?_⟩
      simp only [List.getElem_map]
      exact sub_or_left _ _
    · exact ⟨rfl, fun j h h' => Sub.refl _⟩
  · simp only [suppressFromRampFit, hn, decide_false, Bool.and_false, Bool.false_eq_true, if_false, if_true,
      List.mem_map] at hg
    obtain ⟨g0, -, rfl⟩ := hg
    by_cases h : ∃ j, (∃ h : j < g0.length, FitUsable pers g0[j]) ∧ ∀ j', (∃ h : j' < g0.length, FitUsable pers g0[j']) → j' = j
    · rw [(C34_suppression_exact dnu pers g0).1 h]
      rintro ⟨j, ⟨hj, hu⟩, -⟩
      obtain ⟨i, h1, h2⟩ := hdp
      rw [List.getElem_map] at hu
      have := hu i (by rw [Nat.testBit_or, h1, Bool.or_true])
      rw [h2] at this
      exact absurd this (by simp)
    · rw [(C34_suppression_exact dnu pers g0).2 h]; exact h

example : suppressFromRampFit 1 16 3 true [[16, 2, 2], [0, 16, 2], [2, 2, 2], [4, 0, 6]]
    = [[17, 3, 3], [0, 16, 2], [2, 2, 2], [5, 1, 7]] := by decide

end Verif.Thm
