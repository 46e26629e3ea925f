import Mathlib.Data.Finset.Card
import Mathlib.Data.Finset.Dedup
import Mathlib.Data.List.Induction
import Mathlib.Tactic.Linarith
import Mathlib.Tactic.FieldSimp
import Mathlib.Tactic.Ring
import Verif.Model.Resample

/-! # Resampling: groups, times and variances (C50, C51, C52) -/

set_option linter.unusedSectionVars false

namespace Verif.Thm
open Verif.Resample

section Time
variable {α : Type} [Field α] [LinearOrder α] [IsStrictOrderedRing α] {γ : Type} [DecidableEq γ]

/-- Specification: the models that are the first of their group, among groups not in `seen`. -/
def rsFirsts (seen : List γ) (ms : List (Meta γ α)) : List (Meta γ α) :=
  (ms.zipIdx.filter fun p => decide (p.1.gid ∉ seen ∧ ∀ x ∈ ms.take p.2, x.gid ≠ p.1.gid)).map Prod.fst

/-- Specification: the report after finalising, for the first models `fs` of the groups. -/
structure RsReport (fs : List (Meta γ α)) (o : Out α) : Prop where
  exposure : o.exposure = (fs.map fun m => m.exposure.getD 0).sum
  duration : o.duration = (fs.map fun m => m.duration.getD 0).sum
  start : ∃ a, o.start = some a ∧ (∃ m ∈ fs, m.start = a) ∧ ∀ m ∈ fs, a ≤ m.start
  stop : ∃ b, o.stop = some b ∧ (∃ m ∈ fs, m.stop = b) ∧ ∀ m ∈ fs, m.stop ≤ b
  measured : (∀ m ∈ fs, m.measurement.isSome) → o.measurement = some (fs.map fun m => m.measurement.getD 0).sum
  notMeasured : (∃ m ∈ fs, m.measurement = none) → o.measurement = none

theorem rs_run_append (s : State γ α) (a b : List (Op γ α)) : run s (a ++ b) = (run s a).bind fun t => run t b := by
  simp only [run, List.foldl_append]
  rcases List.foldl _ (some s) a with _ | t
  · simp only [Option.bind_none]
    induction b with
    | nil => rfl
    | cons x b ih => simpa using ih
  · rfl

theorem rs_firsts_append (seen : List γ) (ms : List (Meta γ α)) (m : Meta γ α) :
    rsFirsts seen (ms ++ [m]) = rsFirsts seen ms ++ (if m.gid ∈ seen ∨ m.gid ∈ ms.map Meta.gid then [] else [m]) := by
  simp only [rsFirsts, List.zipIdx_append, List.filter_append, List.map_append]
  congr 1
  · congr 1
    apply List.filter_congr
    rintro ⟨x, i⟩ hx
    have hi := (List.mem_zipIdx hx).2.1
    have : (ms ++ [m]).take i = ms.take i := by
      rw [List.take_append_of_le_length (by omega)]
    simp only [this]
  · by_cases h : m.gid ∈ seen ∨ m.gid ∈ ms.map Meta.gid
    · simp only [h, if_true]
      simp only [List.zipIdx_singleton, List.map_eq_nil_iff, List.filter_eq_nil_iff, List.mem_singleton]
      rintro _ rfl
      simp only [List.mem_map] at h
      simp only [Nat.zero_add, decide_eq_true_eq, not_and, not_forall, List.take_left']
      intro hs
      rcases h with h | ⟨x, hx, hxg⟩
      · exact absurd h hs
      · exact ⟨x, by simpa using hx, by simpa using hxg⟩
    · simp only [h, if_false]
      push Not at h
      simp only [List.mem_map, not_exists, not_and] at h
      have hp : decide (m.gid ∉ seen ∧ ∀ x ∈ (ms ++ [m]).take ms.length, x.gid ≠ m.gid) = true := by
        simp only [List.take_left', decide_eq_true_eq]
        exact ⟨h.1, fun x hx => h.2 x (by simpa using hx)⟩
      simp only [List.zipIdx_singleton, Nat.zero_add, List.filter_cons, hp, if_true, List.filter_nil, List.map_cons,
        List.map_nil]

theorem rs_firsts_gid (seen : List γ) (ms : List (Meta γ α)) (g : γ) :
    g ∈ (rsFirsts seen ms).map Meta.gid ↔ g ∉ seen ∧ g ∈ ms.map Meta.gid := by
  induction ms using List.reverseRecOn with
  | nil => simp [rsFirsts]
  | append_singleton ms m ih =>
    rw [rs_firsts_append, List.map_append, List.mem_append, ih, List.map_append, List.mem_append]
    by_cases h : m.gid ∈ seen ∨ m.gid ∈ ms.map Meta.gid
    · simp only [h, if_true, List.map_nil, List.not_mem_nil, or_false, List.map_cons, List.mem_singleton]
      constructor
      · rintro ⟨a, b⟩; exact ⟨a, Or.inl b⟩
      · rintro ⟨a, b | rfl⟩
        · exact ⟨a, b⟩
        · exact ⟨a, h.resolve_left a⟩
    · simp only [h, if_false, List.map_cons, List.map_nil, List.mem_singleton]
      push Not at h
      constructor
      · rintro (⟨a, b⟩ | rfl)
        · exact ⟨a, Or.inl b⟩
        · exact ⟨h.1, Or.inr rfl⟩
      · rintro ⟨a, b | rfl⟩
        · exact Or.inl ⟨a, b⟩
        · exact Or.inr rfl

theorem rs_firsts_nodup (seen : List γ) (ms : List (Meta γ α)) : ((rsFirsts seen ms).map Meta.gid).Nodup := by
  induction ms using List.reverseRecOn with
  | nil => simp [rsFirsts]
  | append_singleton ms m ih =>
    rw [rs_firsts_append]
    by_cases h : m.gid ∈ seen ∨ m.gid ∈ ms.map Meta.gid
    · simpa only [h, if_true, List.append_nil] using ih
    · simp only [h, if_false, List.map_append, List.map_cons, List.map_nil]
      push Not at h
      rw [List.nodup_append]
      refine ⟨ih, List.nodup_singleton _, ?_⟩
      intro a ha b hb
      rw [List.mem_singleton] at hb
      subst hb
      rintro rfl
      exact h.2 ((rs_firsts_gid seen ms _).1 ha).2

/-- The state after adding models. -/
theorem rs_run_adds (s : State γ α) (hf : s.finalized = false) (ms : List (Meta γ α)) :
    ∃ t, run s (ms.map Op.add) = some t ∧ t.finalized = false ∧ t.nModels = s.nModels + ms.length ∧
      t.groups = s.groups ++ (rsFirsts s.groups ms).map Meta.gid ∧
      t.exposure = s.exposure + ((rsFirsts s.groups ms).map fun m => m.exposure.getD 0).sum ∧
      t.duration = s.duration + ((rsFirsts s.groups ms).map fun m => m.duration.getD 0).sum ∧
      t.measurement = s.measurement + ((rsFirsts s.groups ms).map fun m => (tmeasure m).1.getD 0).sum ∧
      t.starts = s.starts ++ (rsFirsts s.groups ms).map Meta.start ∧
      t.stops = s.stops ++ (rsFirsts s.groups ms).map Meta.stop ∧
      t.success = s.success ++ (rsFirsts s.groups ms).map (fun m => (tmeasure m).2) ∧
      t.out.measurement = s.out.measurement := by
  induction ms using List.reverseRecOn with
  | nil => exact ⟨s, by simp [run, rsFirsts, hf]⟩
  | append_singleton ms m ih =>
    obtain ⟨t, h0, h1, h2, h3, h4, h5, h6, h7, h8, h9, h10⟩ := ih
    have hmem : m.gid ∈ t.groups ↔ (m.gid ∈ s.groups ∨ m.gid ∈ ms.map Meta.gid) := by
      rw [h3, List.mem_append, rs_firsts_gid]
      tauto
    have hrun : run s ((ms ++ [m]).map Op.add) = t.add m := by
      rw [List.map_append, rs_run_append, h0]
      rfl
    rw [hrun, rs_firsts_append]
    by_cases h : m.gid ∈ s.groups ∨ m.gid ∈ ms.map Meta.gid
    · refine ⟨{ t with nModels := t.nModels + 1 }, ?_, ?_⟩
      · simp [State.add, h1, hmem.2 h]
      · simp only [h, if_true, List.append_nil]
        exact ⟨h1, by simp [h2, Nat.add_assoc], h3, h4, h5, h6, h7, h8, h9, h10⟩
    · have hg : m.gid ∉ t.groups := fun h' => h (hmem.1 h')
      simp only [State.add, h1, hg, if_false, Bool.false_eq_true, State.updateTime, h]
      refine ⟨_, rfl, rfl, ?_⟩
      refine ⟨by simp [h2, Nat.add_assoc], by simp [h3], ?_, ?_, ?_, by simp [h7], by simp [h8], by simp [h9], h10⟩
      · simp [h4, add_assoc]
      · simp [h5, add_assoc]
      · simp [h6, add_assoc]

/-- Finalising. -/
theorem rs_finalize (t : State γ α) (hf : t.finalized = false) (hn : t.nModels ≠ 0) (fs : List (Meta γ α)) (hne : fs ≠ [])
    (he : t.exposure = (fs.map fun m => m.exposure.getD 0).sum) (hd : t.duration = (fs.map fun m => m.duration.getD 0).sum)
    (hm : t.measurement = (fs.map fun m => (tmeasure m).1.getD 0).sum) (hs : t.starts = fs.map Meta.start)
    (hst : t.stops = fs.map Meta.stop) (hsu : t.success = fs.map fun m => (tmeasure m).2) (hom : t.out.measurement = none) :
    ∃ u, t.finalize = some u ∧ u.finalized = true ∧ u.groups = t.groups ∧ u.nModels = t.nModels ∧
      u.out.pointings = t.groups.length ∧ RsReport fs u.out := by
  have h1 : t.starts ≠ [] := by simpa [hs] using hne
  have h2 : t.stops ≠ [] := by simpa [hst] using hne
  rcases ha : t.starts.min? with _ | a
  · exact absurd (List.min?_eq_none_iff.1 ha) h1
  rcases hb : t.stops.max? with _ | b
  · exact absurd (List.max?_eq_none_iff.1 hb) h2
  rw [List.min?_eq_some_iff] at ha
  rw [List.max?_eq_some_iff] at hb
  refine ⟨{ t with
        finalized := true
        out := { pointings := t.groups.length, exposure := t.exposure, start := some a, stop := some b,
                 duration := t.duration,
                 measurement := if t.success.all id then some t.measurement else t.out.measurement } }, ?_, rfl, rfl, rfl, rfl, ?_⟩
  · rw [← List.min?_eq_some_iff] at ha
    rw [← List.max?_eq_some_iff] at hb
    simp [State.finalize, hf, hn, ha, hb]
  · refine ⟨he, hd, ⟨a, rfl, ?_, ?_⟩, ⟨b, rfl, ?_, ?_⟩, ?_, ?_⟩
    · have := ha.1
      rw [hs, List.mem_map] at this
      exact this
    · intro m hmem
      exact ha.2 _ (by rw [hs]; exact List.mem_map_of_mem hmem)
    · have := hb.1
      rw [hst, List.mem_map] at this
      exact this
    · intro m hmem
      exact hb.2 _ (by rw [hst]; exact List.mem_map_of_mem hmem)
    · intro hall
      have hall' : t.success.all id = true := by
        rw [hsu, List.all_map, List.all_eq_true]
        intro m hmem
        have := hall m hmem
        rcases hh : m.measurement with _ | x
        · simp [hh] at this
        · simp [tmeasure, hh]
      simp only [hall', if_true, hm]
      congr 2
      apply List.map_congr_left
      intro m hmem
      have := hall m hmem
      rcases hh : m.measurement with _ | x
      · simp [hh] at this
      · simp [tmeasure, hh]
    · rintro ⟨m, hmem, hh⟩
      have : t.success.all id = false := by
        rw [hsu, List.all_map, List.all_eq_false]
        exact ⟨m, hmem, by simp [tmeasure, hh]⟩
      simp [this, hom]

theorem rs_finalize_again (u : State γ α) (hf : u.finalized = true) (k : Nat) :
    run u (List.replicate k Op.finalize) = some u := by
  induction k with
  | zero => rfl
  | succ k ih =>
    rw [List.replicate_succ, ← List.singleton_append, rs_run_append]
    have : run u [Op.finalize] = some u := by simp [run, step, State.finalize, hf]
    rw [this]
    exact ih

/-- **C50**: after adding models and finalising (once or more often) the pointings are the number of distinct groups, and
exposure time, duration, start, end and measurement time are those of the first model of every group. -/
theorem C50_report (ms : List (Meta γ α)) (hne : ms ≠ []) (k : Nat) :
    ∃ s, run init (ms.map Op.add ++ List.replicate (k + 1) Op.finalize) = some s ∧
      s.out.pointings = (ms.map Meta.gid).toFinset.card ∧ RsReport (rsFirsts [] ms) s.out := by
  obtain ⟨t, h0, h1, h2, h3, h4, h5, h6, h7, h8, h9, h10⟩ := rs_run_adds (init : State γ α) rfl ms
  have hg : (init : State γ α).groups = [] := rfl
  rw [hg] at h3 h4 h5 h6 h7 h8 h9
  have hfne : rsFirsts [] ms ≠ [] := by
    obtain ⟨m, ms', rfl⟩ := List.exists_cons_of_ne_nil hne
    intro h
    have := (rs_firsts_gid [] (m :: ms') m.gid).2 ⟨by simp, by simp⟩
    rw [h] at this
    simp at this
  obtain ⟨u, hu, huf, hug, -, hup, hur⟩ := rs_finalize t h1
    (by rw [h2]; have := List.length_pos_of_ne_nil hne; omega) (rsFirsts [] ms) hfne
    (by simpa [init, State.reset, freshOut] using h4) (by simpa [init, State.reset, freshOut] using h5)
    (by simpa [init, State.reset, freshOut] using h6) (by simpa [init, State.reset, freshOut] using h7)
    (by simpa [init, State.reset, freshOut] using h8) (by simpa [init, State.reset, freshOut] using h9)
    (by simpa [init, State.reset, freshOut] using h10)
  refine ⟨u, ?_, ?_, hur⟩
  · rw [rs_run_append, h0, List.replicate_succ, Option.bind_some, ← List.singleton_append, rs_run_append]
    have : run t [Op.finalize] = some u := by simpa [run, step] using hu
    rw [this]
    exact rs_finalize_again u huf k
  · rw [hup, h3, List.nil_append, ← List.toFinset_card_of_nodup (rs_firsts_nodup [] ms)]
    congr 1
    ext g
    rw [List.mem_toFinset, List.mem_toFinset, rs_firsts_gid]
    simp

/-- **C50**: without a reset, the only histories without an exception are models followed by calls of `finalize`, which
needs a model: nothing can be added after finalising. -/
theorem C50_histories (ops : List (Op γ α)) (hr : ∀ op ∈ ops, op ≠ Op.reset) (s : State γ α)
    (h : run init ops = some s) :
    ∃ ms k, ops = ms.map Op.add ++ List.replicate k Op.finalize ∧ (k ≠ 0 → ms ≠ []) ∧ (s.finalized = true ↔ k ≠ 0) := by
  induction ops using List.reverseRecOn generalizing s with
  | nil =>
    refine ⟨[], 0, rfl, by simp, ?_⟩
    simp only [run, List.foldl_nil, Option.some.injEq] at h
    subst h
    simp [init, State.reset]
  | append_singleton ops op ih =>
    rw [rs_run_append] at h
    rcases ht : run init ops with _ | t
    · simp [ht] at h
    · obtain ⟨ms, k, rfl, hk, hfin⟩ := ih (fun o ho => hr o (by simp [ho])) t ht
      rw [ht, Option.bind_some] at h
      cases op with
      | reset => exact absurd rfl (hr Op.reset (by simp))
      | add m =>
        have hadd : t.add m = some s := by simpa [run, step] using h
        have hnf : t.finalized = false := by
          by_contra hc
          simp [State.add, Bool.eq_true_of_not_eq_false hc] at hadd
        have hk0 : k = 0 := by
          by_contra hc
          rw [hfin.2 hc] at hnf
          simp at hnf
        subst hk0
        refine ⟨ms ++ [m], 0, by simp, by simp, ?_⟩
        have : s.finalized = false := by
          simp only [State.add, hnf, Bool.false_eq_true, if_false] at hadd
          split at hadd
          · injection hadd with hadd; subst hadd; rfl
          · injection hadd with hadd; subst hadd
            simp only [State.updateTime]
            split <;> rfl
        simp [this]
      | finalize =>
        have hfi : t.finalize = some s := by simpa [run, step] using h
        refine ⟨ms, k + 1, by rw [List.replicate_succ']; simp, ?_, ?_⟩
        · rintro - rfl
          by_cases hk0 : k = 0
          · subst hk0
            have : t = init := by simpa [run] using ht.symm
            subst this
            simp [State.finalize, init, State.reset] at hfi
          · exact hk hk0 rfl
        · simp only [ne_eq, Nat.add_eq_zero_iff, one_ne_zero, and_false, not_false_eq_true, iff_true]
          simp only [State.finalize] at hfi
          split at hfi
          · rename_i hh; injection hfi with hfi; subst hfi; exact hh
          · split at hfi
            · simp at hfi
            · split at hfi
              · injection hfi with hfi; subst hfi; rfl
              · simp at hfi

/-- A model for the examples. -/
def rsMeta (g : Nat) (a b e : ℚ) (t : Option ℚ) : Meta Nat ℚ :=
  { gid := g, start := a, stop := b, exposure := some e, duration := some (b - a), measurement := t }

example : [rsMeta 1 0 5 4 (some 3), rsMeta 2 6 9 2 (some 1), rsMeta 1 0 5 4 (some 3)] ≠ [] := by simp

example : ((run init ([rsMeta 1 0 5 4 (some 3), rsMeta 2 6 9 2 (some 1), rsMeta 1 0 5 4 (some 3)].map Op.add ++
    [Op.finalize])).map fun s => s.out) =
    some ({ pointings := 2, exposure := 6, start := some 0, stop := some 9, duration := 8, measurement := some 4 } : Out ℚ) := by
  decide +kernel

/-- What is reported after a first run, a reset and a second run. -/
theorem rs_after_reset (ms₁ ms₂ : List (Meta γ α)) (h₁ : ms₁ ≠ []) :
    (rsFirsts (ms₁.map Meta.gid) ms₂ = [] →
      run init (ms₁.map Op.add ++ [Op.finalize, Op.reset] ++ ms₂.map Op.add ++ [Op.finalize]) = none) ∧
    (rsFirsts (ms₁.map Meta.gid) ms₂ ≠ [] →
      ∃ s, run init (ms₁.map Op.add ++ [Op.finalize, Op.reset] ++ ms₂.map Op.add ++ [Op.finalize]) = some s ∧
        s.out.pointings = ((ms₁ ++ ms₂).map Meta.gid).toFinset.card ∧
        RsReport (rsFirsts (ms₁.map Meta.gid) ms₂) s.out) := by
  obtain ⟨t, h0, h1, h2, h3, h4, h5, h6, h7, h8, h9, h10⟩ := rs_run_adds (init : State γ α) rfl ms₁
  have hg : (init : State γ α).groups = [] := rfl
  rw [hg] at h3 h4 h5 h6 h7 h8 h9
  have hfne : rsFirsts [] ms₁ ≠ [] := by
    obtain ⟨m, ms', rfl⟩ := List.exists_cons_of_ne_nil h₁
    intro h
    have := (rs_firsts_gid [] (m :: ms') m.gid).2 ⟨by simp, by simp⟩
    rw [h] at this
    simp at this
  obtain ⟨u, hu, huf, hug, hun, hup, hur⟩ := rs_finalize t h1
    (by rw [h2]; have := List.length_pos_of_ne_nil h₁; omega) (rsFirsts [] ms₁) hfne
    (by simpa [init, State.reset, freshOut] using h4) (by simpa [init, State.reset, freshOut] using h5)
    (by simpa [init, State.reset, freshOut] using h6) (by simpa [init, State.reset, freshOut] using h7)
    (by simpa [init, State.reset, freshOut] using h8) (by simpa [init, State.reset, freshOut] using h9)
    (by simpa [init, State.reset, freshOut] using h10)
  have hru : run init (ms₁.map Op.add ++ [Op.finalize, Op.reset]) = some u.reset := by
    rw [rs_run_append, h0]
    simp [run, step, hu]
  -- the second run
  have hgr : ∀ g, g ∈ u.reset.groups ↔ g ∈ ms₁.map Meta.gid := by
    intro g
    have : u.reset.groups = u.groups := rfl
    rw [this, hug, h3, List.nil_append, rs_firsts_gid]
    simp
  have hfirst : rsFirsts u.reset.groups ms₂ = rsFirsts (ms₁.map Meta.gid) ms₂ := by
    simp only [rsFirsts]
    congr 1
    apply List.filter_congr
    rintro ⟨x, i⟩ -
    simp only [hgr]
  obtain ⟨t', g0, g1, g2, g3, g4, g5, g6, g7, g8, g9, g10⟩ := rs_run_adds u.reset rfl ms₂
  rw [hfirst] at g3 g4 g5 g6 g7 g8 g9
  have hrun : run init (ms₁.map Op.add ++ [Op.finalize, Op.reset] ++ ms₂.map Op.add ++ [Op.finalize]) = t'.finalize := by
    rw [rs_run_append, rs_run_append, hru, Option.bind_some, g0]
    rfl
  have hnm : t'.nModels ≠ 0 := by
    have e1 : u.reset.nModels = u.nModels := rfl
    rw [g2, e1, hun, h2]
    have := List.length_pos_of_ne_nil h₁
    omega
  have e2 : u.reset.starts = [] := by simp [State.reset, huf, freshOut]
  have e3 : u.reset.stops = [] := by simp [State.reset, huf, freshOut]
  constructor
  · intro he
    rw [hrun]
    have e4 : t'.starts = [] := by rw [g7, he, e2]; rfl
    simp [State.finalize, g1, hnm, e4]
  · intro hne
    obtain ⟨w, hw, -, -, -, hwp, hwr⟩ := rs_finalize t' g1 hnm (rsFirsts (ms₁.map Meta.gid) ms₂) hne
      (by simpa [State.reset] using g4) (by simpa [State.reset] using g5)
      (by simpa [State.reset] using g6) (by rw [g7, e2]; rfl)
      (by rw [g8, e3]; rfl) (by simpa [State.reset] using g9)
      (by rw [g10]; simp [State.reset, huf, freshOut])
    refine ⟨w, by rw [hrun, hw], ?_, hwr⟩
    rw [hwp, g3]
    have e5 : u.reset.groups = (rsFirsts [] ms₁).map Meta.gid := by
      have : u.reset.groups = u.groups := rfl
      rw [this, hug, h3, List.nil_append]
    have hnd : (u.reset.groups ++ (rsFirsts (ms₁.map Meta.gid) ms₂).map Meta.gid).Nodup := by
      rw [List.nodup_append]
      refine ⟨by rw [e5]; exact rs_firsts_nodup _ _, rs_firsts_nodup _ _, ?_⟩
      intro a ha b hb hab
      subst hab
      exact ((rs_firsts_gid _ _ _).1 hb).1 ((hgr a).1 ha)
    rw [← List.toFinset_card_of_nodup hnd]
    congr 1
    ext g
    rw [List.mem_toFinset, List.mem_toFinset, List.mem_append, hgr, rs_firsts_gid, List.map_append, List.mem_append]
    tauto

/-- **C51**, partial: after `finalize` and `reset_arrays` the times reported are those a new object would report, if no
group of the second run occurred in the first.  Missing: the pointings, which count the groups of both runs
(`C51_pointings_of_both_runs`), and groups that occur in both runs (`C51_old_groups_are_skipped`,
`C51_same_groups_fail`). -/
theorem C51_times_partial (ms₁ ms₂ : List (Meta γ α)) (h₁ : ms₁ ≠ []) (h₂ : ms₂ ≠ [])
    (hd : ∀ a ∈ ms₁, ∀ b ∈ ms₂, a.gid ≠ b.gid) :
    ∃ s f, run init (ms₁.map Op.add ++ [Op.finalize, Op.reset] ++ ms₂.map Op.add ++ [Op.finalize]) = some s ∧
      run init (ms₂.map Op.add ++ [Op.finalize]) = some f ∧
      s.out.exposure = f.out.exposure ∧ s.out.duration = f.out.duration ∧ s.out.start = f.out.start ∧
      s.out.stop = f.out.stop ∧ s.out.measurement = f.out.measurement := by
  have hF : rsFirsts (ms₁.map Meta.gid) ms₂ = rsFirsts [] ms₂ := by
    simp only [rsFirsts]
    congr 1
    apply List.filter_congr
    rintro ⟨x, i⟩ hx
    have hxm : x ∈ ms₂ := by
      rw [(List.mem_zipIdx hx).2.2]; exact List.getElem_mem _
    have : x.gid ∉ ms₁.map Meta.gid := by
      rw [List.mem_map]
      rintro ⟨a, ha, hag⟩
      exact hd a ha x hxm hag
    simp [this]
  obtain ⟨f, hf, -, hfr⟩ := C50_report ms₂ h₂ 0
  have hne : rsFirsts (ms₁.map Meta.gid) ms₂ ≠ [] := by
    rw [hF]
    obtain ⟨_, -, ⟨m, hm, -⟩, -⟩ := hfr.start
    exact List.ne_nil_of_mem hm
  obtain ⟨s, hs, -, hsr⟩ := (rs_after_reset ms₁ ms₂ h₁).2 hne
  rw [hF] at hsr
  refine ⟨s, f, hs, by simpa using hf, by rw [hsr.exposure, hfr.exposure], by rw [hsr.duration, hfr.duration], ?_, ?_, ?_⟩
  · obtain ⟨a, ha, ⟨m, hm, hma⟩, hal⟩ := hsr.start
    obtain ⟨b, hb, ⟨n, hn, hnb⟩, hbl⟩ := hfr.start
    rw [ha, hb, show a = b from le_antisymm (hnb ▸ hal n hn) (hma ▸ hbl m hm)]
  · obtain ⟨a, ha, ⟨m, hm, hma⟩, hal⟩ := hsr.stop
    obtain ⟨b, hb, ⟨n, hn, hnb⟩, hbl⟩ := hfr.stop
    rw [ha, hb, show a = b from le_antisymm (hma ▸ hbl m hm) (hnb ▸ hal n hn)]
  · by_cases hall : ∀ m ∈ rsFirsts [] ms₂, m.measurement.isSome
    · rw [hsr.measured hall, hfr.measured hall]
    · push Not at hall
      obtain ⟨m, hm, hmm⟩ := hall
      have hmm : ∃ m ∈ rsFirsts [] ms₂, m.measurement = none := ⟨m, hm, by simpa using hmm⟩
      rw [hsr.notMeasured hmm, hfr.notMeasured hmm]

/-- **C51**, finding: the pointings reported after a reset count the groups of both runs. -/
theorem C51_pointings_of_both_runs (ms₁ ms₂ : List (Meta γ α)) (h₁ : ms₁ ≠ []) (s : State γ α)
    (h : run init (ms₁.map Op.add ++ [Op.finalize, Op.reset] ++ ms₂.map Op.add ++ [Op.finalize]) = some s) :
    s.out.pointings = ((ms₁ ++ ms₂).map Meta.gid).toFinset.card := by
  by_cases hF : rsFirsts (ms₁.map Meta.gid) ms₂ = []
  · rw [(rs_after_reset ms₁ ms₂ h₁).1 hF] at h
    simp at h
  · obtain ⟨t, ht, hp, -⟩ := (rs_after_reset ms₁ ms₂ h₁).2 hF
    rw [h] at ht
    injection ht with ht
    rw [ht, hp]

/-- **C51**, finding: models of a group seen before the reset do not count in the times reported after it. -/
theorem C51_old_groups_are_skipped (ms₁ ms₂ : List (Meta γ α)) (h₁ : ms₁ ≠ []) (s : State γ α)
    (h : run init (ms₁.map Op.add ++ [Op.finalize, Op.reset] ++ ms₂.map Op.add ++ [Op.finalize]) = some s) :
    RsReport (rsFirsts (ms₁.map Meta.gid) ms₂) s.out := by
  by_cases hF : rsFirsts (ms₁.map Meta.gid) ms₂ = []
  · rw [(rs_after_reset ms₁ ms₂ h₁).1 hF] at h
    simp at h
  · obtain ⟨t, ht, -, hr⟩ := (rs_after_reset ms₁ ms₂ h₁).2 hF
    rw [h] at ht
    injection ht with ht
    rwa [ht]

/-- **C51**, finding: resampling the same groups again after a reset raises an exception in `finalize`. -/
theorem C51_same_groups_fail (ms₁ ms₂ : List (Meta γ α)) (h₁ : ms₁ ≠ [])
    (hsub : ∀ b ∈ ms₂, ∃ a ∈ ms₁, a.gid = b.gid) :
    run init (ms₁.map Op.add ++ [Op.finalize, Op.reset] ++ ms₂.map Op.add ++ [Op.finalize]) = none := by
  apply (rs_after_reset ms₁ ms₂ h₁).1
  rw [List.eq_nil_iff_forall_not_mem]
  intro m hm
  have hg := (rs_firsts_gid (ms₁.map Meta.gid) ms₂ m.gid).1 (List.mem_map_of_mem hm)
  obtain ⟨b, hb, hbg⟩ := List.mem_map.1 hg.2
  obtain ⟨a, ha, hab⟩ := hsub b hb
  exact hg.1 (List.mem_map.2 ⟨a, ha, hab.trans hbg⟩)

example : ∀ a ∈ [rsMeta 1 0 5 4 (some 3)], ∀ b ∈ [rsMeta 2 6 9 2 none, rsMeta 3 9 10 1 none], a.gid ≠ b.gid := by
  decide +kernel

/-- One pointing before the reset and one after it are reported as two. -/
example : ((run init [.add (rsMeta 1 0 5 4 (some 3)), .finalize, .reset, .add (rsMeta 2 6 9 2 none), .finalize]).map
    fun s => s.out.pointings) = some 2 := by decide +kernel

/-- The same model resampled again after a reset. -/
example : (run init [.add (rsMeta 1 0 5 4 (some 3)), .finalize, .reset, .add (rsMeta 1 0 5 4 (some 3)), .finalize]).isNone
    = true := by decide +kernel

end Time

end Verif.Thm
