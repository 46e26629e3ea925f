import Verif.Model.WcsInfo
import Mathlib.Tactic.Ring
import Mathlib.Tactic.LinearCombination

/-!
# C155: reference angles of a WCS

`_wcsinfo_from_wcs_transform` (tweakreg/utils.py:6-38), `construct_wcs_corrector` (tweakreg/tweakreg.py:383-414).
-/

namespace Verif.Thm

open Verif.WcsInfo

section
variable {α : Type} [Field α]

/-- Spec: a submodel that is a rotation by five angles. -/
def WiFive (s : Submodel α) : Prop := ∃ axes l, s.kind = .rotation axes l ∧ l.length = 5

/-- Spec: the frames have different names. -/
def WiNames (w : List (Step α)) : Prop := (w.map fun s => s.frame).Nodup

/-- Spec: the pipeline ends with the transform to the frame `world`, whose first rotation by five angles has the given axes and angles, and
contains the frame `v2v3`. -/
def WiSky (w : List (Step α)) (axes : List Char) (a b c d e : α) : Prop :=
  ∃ (pre : List (Step α)) (f : String) (before after : List (Submodel α)) (nm : Option String) (last : List (Submodel α)),
    w = pre ++ [⟨f, before ++ ⟨nm, .rotation axes [a, b, c, d, e]⟩ :: after⟩, ⟨"world", last⟩]
    ∧ (∀ s ∈ before, ¬ WiFive s) ∧ ∃ s ∈ w, s.frame = "v2v3"

/-- Spec: between the frame `from` and `v2v3corr`, exactly one submodel is named `det_to_optic_axis`, a rotation by the given angles. -/
def WiAxis (w : List (Step α)) (frm : String) (a b c : α) : Prop :=
  ∃ (pre mid post : List (Step α)) (s0 : List (Submodel α)) (f : Step α) (axes : List Char) (before after : List (Submodel α)),
    w = pre ++ ⟨frm, s0⟩ :: mid ++ f :: post ∧ f.frame = "v2v3corr"
    ∧ (s0 ++ mid.flatMap fun s => s.subs) = before ++ ⟨some "det_to_optic_axis", .rotation axes [a, b, c]⟩ :: after
    ∧ ∀ s ∈ before ++ after, s.name ≠ some "det_to_optic_axis"

omit [Field α] in
theorem wi_five_none (s : Submodel α) (l : List (Submodel α)) (h : ¬ WiFive s) : firstFive (s :: l) = firstFive l := by
  rw [firstFive]
  split
  · rename_i axes a b c d e hk
    exact absurd ⟨axes, _, hk, rfl⟩ h
  · rfl

omit [Field α] in
theorem wi_five (before after : List (Submodel α)) (nm : Option String) (axes : List Char) (a b c d e : α) (h : ∀ s ∈ before, ¬ WiFive s) :
    firstFive (before ++ ⟨nm, .rotation axes [a, b, c, d, e]⟩ :: after) = some (a, b, c, d, e) := by
  induction before with
  | nil => rfl
  | cons s l ih =>
    rw [List.cons_append, wi_five_none s _ (h s (by simp))]
    exact ih fun t ht => h t (by simp [ht])

omit [Field α] in
theorem wi_idx (pre : List (Step α)) (s : Step α) (post : List (Step α)) (h : WiNames (pre ++ s :: post)) :
    (frames (pre ++ s :: post)).idxOf s.frame = pre.length := by
  unfold WiNames at h
  rw [List.map_append, List.map_cons, List.nodup_append] at h
  have hn : s.frame ∉ pre.map fun s => s.frame := by
    intro hm
    exact h.2.2 _ hm _ (by simp) rfl
  unfold frames
  rw [List.map_append, List.idxOf_append_of_notMem hn]
  simp

omit [Field α] in
theorem wi_transform (pre mid post : List (Step α)) (s t : Step α) (h : WiNames (pre ++ s :: mid ++ t :: post)) :
    transform (pre ++ s :: mid ++ t :: post) s.frame t.frame = some (s.subs ++ mid.flatMap fun s => s.subs) := by
  have h1 := wi_idx pre s (mid ++ t :: post) (by simpa using h)
  have h2 := wi_idx (pre ++ s :: mid) t post h
  rw [show pre ++ s :: (mid ++ t :: post) = pre ++ s :: mid ++ t :: post by simp] at h1
  unfold transform
  simp only [h1, h2]
  rw [if_pos (by simp)]
  congr 1
  have e : (List.drop pre.length (pre ++ s :: mid ++ t :: post)).take ((pre ++ s :: mid).length - pre.length) = s :: mid := by
    rw [List.append_assoc, List.drop_left']
    · have : (pre ++ s :: mid).length - pre.length = (s :: mid).length := by simp
      rw [this, List.take_left']
      rfl
    · rfl
  rw [e]
  simp

omit [Field α] in
theorem wi_axis (w : List (Step α)) (hw : WiNames w) (frm : String) (a b c : α) (h : WiAxis w frm a b c) :
    (transform w frm "v2v3corr").bind opticAxis = some (a, b, c) := by
  obtain ⟨pre, mid, post, s0, f, axes, before, after, rfl, hf, hs, hn⟩ := h
  have := wi_transform pre mid post ⟨frm, s0⟩ f hw
  rw [hf] at this
  rw [this, Option.bind_some]
  simp only
  rw [hs]
  have e1 : before.filter (fun s => s.name == some "det_to_optic_axis") = [] := by
    rw [List.filter_eq_nil_iff]
    intro s hs
    simpa using hn s (by simp [hs])
  have e2 : after.filter (fun s => s.name == some "det_to_optic_axis") = [] := by
    rw [List.filter_eq_nil_iff]
    intro s hs
    simpa using hn s (by simp [hs])
  unfold opticAxis
  rw [List.filter_append, List.filter_cons, e1, e2]
  simp

theorem wi_sky (w : List (Step α)) (hw : WiNames w) (axes : List Char) (a b c d e : α) (h : WiSky w axes a b c d e) :
    info w = if (frames w).contains "v2v3corr" then
          ((transform w (if (frames w).contains "v2v3vacorr" then "v2v3vacorr" else "v2v3") "v2v3corr").bind opticAxis).map
            fun (v2, nv3, roll) => ⟨3600 * v2, -3600 * nv3, roll, -e, d⟩
        else some ⟨3600 * a, -3600 * b, c, -e, d⟩ := by
  obtain ⟨pre, f, before, after, nm, last, hwe, hb, hv⟩ := h
  have hfr : frames w = (frames pre ++ [f]) ++ ["world"] := by simp [hwe, frames]
  have h1 : (frames w).contains "v2v3" = true := by
    obtain ⟨s, hs, he⟩ := hv
    rw [List.contains_iff_mem]
    exact List.mem_map.2 ⟨s, hs, he⟩
  have h2 : (frames w).contains "world" = true := by simp [hfr]
  have h3 : (frames w).getLast? = some "world" := by simp [hfr]
  have h4 : (frames w).dropLast.getLast? = some f := by rw [hfr, List.dropLast_concat]; simp
  have h5 : transform w f "world" = some (before ++ ⟨nm, .rotation axes [a, b, c, d, e]⟩ :: after) := by
    have := wi_transform pre [] [] ⟨f, before ++ ⟨nm, .rotation axes [a, b, c, d, e]⟩ :: after⟩ ⟨"world", last⟩
      (by simpa [hwe] using hw)
    simpa [hwe] using this
  unfold info
  simp only [h1, h2, h3, h4, not_true_eq_false, ne_eq, or_self, if_false, Option.bind_some, h5, wi_five before after nm axes a b c d e hb]

omit [Field α] in
theorem wi_five_conv (l : List (Submodel α)) (a b c d e : α) (h : firstFive l = some (a, b, c, d, e)) :
    ∃ before after nm axes, l = before ++ ⟨nm, .rotation axes [a, b, c, d, e]⟩ :: after ∧ ∀ s ∈ before, ¬ WiFive s := by
  induction l with
  | nil => cases h
  | cons s l ih =>
    by_cases hs : WiFive s
    · obtain ⟨axes, m, hk, hm⟩ := hs
      obtain ⟨nm, k⟩ := s
      simp only at hk
      subst hk
      match m, hm with
      | [a', b', c', d', e'], _ =>
        simp only [firstFive, Option.some.injEq, Prod.mk.injEq] at h
        obtain ⟨rfl, rfl, rfl, rfl, rfl⟩ := h
        exact ⟨[], l, nm, axes, rfl, by simp⟩
    · rw [wi_five_none s l hs] at h
      obtain ⟨before, after, nm, axes, rfl, hb⟩ := ih h
      exact ⟨s :: before, after, nm, axes, rfl, by
        intro t ht
        rcases List.mem_cons.1 ht with rfl | ht
        · exact hs
        · exact hb t ht⟩

omit [Field α] in
theorem wi_filter_one (l : List (Submodel α)) (x : Submodel α) (p : Submodel α → Bool) (h : l.filter p = [x]) :
    ∃ before after, l = before ++ x :: after ∧ ∀ s ∈ before ++ after, p s = false := by
  induction l with
  | nil => cases h
  | cons s l ih =>
    by_cases hp : p s = true
    · rw [List.filter_cons_of_pos hp, List.cons.injEq] at h
      obtain ⟨rfl, h⟩ := h
      refine ⟨[], l, rfl, ?_⟩
      intro t ht
      simpa using List.filter_eq_nil_iff.1 h t (by simpa using ht)
    · rw [List.filter_cons_of_neg hp] at h
      obtain ⟨before, after, rfl, hb⟩ := ih h
      refine ⟨s :: before, after, rfl, ?_⟩
      intro t ht
      rcases List.mem_cons.1 (by simpa using ht : t ∈ s :: (before ++ after)) with rfl | ht
      · simpa using hp
      · exact hb t ht

omit [Field α] in
theorem wi_axis_conv (w : List (Step α)) (frm : String) (a b c : α)
    (h : (transform w frm "v2v3corr").bind opticAxis = some (a, b, c)) : WiAxis w frm a b c := by
  rw [Option.bind_eq_some_iff] at h
  obtain ⟨t, ht, ha⟩ := h
  unfold transform at ht
  simp only at ht
  split at ht
  case isFalse => cases ht
  case isTrue hij =>
    obtain ⟨hij, hj⟩ := hij
    have hlen : (frames w).length = w.length := by simp [frames]
    set i := (frames w).idxOf frm with hi
    set j := (frames w).idxOf "v2v3corr" with hj'
    have hwi : w[i].frame = frm := by
      have : (frames w)[i]'(by omega) = frm := List.getElem_idxOf (by omega)
      simpa [frames] using this
    have hwj : w[j].frame = "v2v3corr" := by
      have : (frames w)[j]'(by omega) = "v2v3corr" := List.getElem_idxOf (by omega)
      simpa [frames] using this
    have hd : w.drop i = w[i] :: w.drop (i + 1) := List.drop_eq_getElem_cons (by omega)
    have hsplit : w = w.take i ++ w[i] :: (w.drop (i + 1)).take (j - i - 1) ++ w[j] :: w.drop (j + 1) := by
      have e1 : w.drop (i + 1) = (w.drop (i + 1)).take (j - i - 1) ++ w[j] :: w.drop (j + 1) := by
        have e := (List.take_append_drop (j - i - 1) (w.drop (i + 1))).symm
        rw [List.drop_drop, show i + 1 + (j - i - 1) = j by omega, List.drop_eq_getElem_cons hj] at e
        exact e
      have e2 := (List.take_append_drop i w).symm
      rw [hd, e1] at e2
      simpa using e2
    rw [hd, show j - i = (j - i - 1) + 1 by omega, List.take_succ_cons, List.flatMap_cons, Option.some.injEq] at ht
    unfold opticAxis at ha
    split at ha
    case h_2 => cases ha
    case h_1 nm axes a' b' c' hf =>
      simp only [Option.some.injEq, Prod.mk.injEq] at ha
      obtain ⟨rfl, rfl, rfl⟩ := ha
      obtain ⟨before, after, hta, hb⟩ := wi_filter_one _ _ _ hf
      have hnm : nm = some "det_to_optic_axis" := by
        have : (⟨nm, .rotation axes [a', b', c']⟩ : Submodel α) ∈ t.filter (fun s => s.name == some "det_to_optic_axis") := by simp [hf]
        simpa using (List.mem_filter.1 this).2
      subst hnm
      refine ⟨w.take i, (w.drop (i + 1)).take (j - i - 1), w.drop (j + 1), w[i].subs, w[j], axes, before, after, ?_, hwj, ?_, ?_⟩
      · have : (⟨frm, w[i].subs⟩ : Step α) = w[i] := by
          rcases he : w[i] with ⟨f, l⟩
          rw [he] at hwi
          simp only at hwi
          rw [hwi]
        rw [this]
        exact hsplit
      · rw [ht, hta]
      · intro s hs
        simpa using hb s hs

theorem wi_sky_conv (w : List (Step α)) (hw : WiNames w) (h : info w ≠ none) : ∃ axes a b c d e, WiSky w axes a b c d e := by
  unfold info at h
  simp only at h
  split at h
  · exact absurd rfl h
  · rename_i hc
    push Not at hc
    obtain ⟨h1, h2, h3⟩ := hc
    have hv : ∃ s ∈ w, s.frame = "v2v3" := by
      rw [List.contains_iff_mem] at h1
      simpa [frames] using h1
    rcases List.eq_nil_or_concat w with rfl | ⟨w1, x, rfl⟩
    · simp at hv
    · rw [List.concat_eq_append] at *
      have hx : x.frame = "world" := by simpa [frames] using h3
      rcases List.eq_nil_or_concat w1 with rfl | ⟨w2, y, rfl⟩
      · obtain ⟨s, hs, he⟩ := hv
        simp only [List.nil_append, List.mem_singleton] at hs
        rw [hs, hx] at he
        exact absurd he (by decide)
      · rw [List.concat_eq_append] at *
        have h4 : (frames (w2 ++ [y] ++ [x])).dropLast.getLast? = some y.frame := by
          have : frames (w2 ++ [y] ++ [x]) = (frames w2 ++ [y.frame]) ++ [x.frame] := by simp [frames]
          rw [this, List.dropLast_concat]
          simp
        rw [h4, Option.bind_some] at h
        match ht : transform (w2 ++ [y] ++ [x]) y.frame "world" with
        | none => rw [ht] at h; exact absurd rfl h
        | some t =>
          rw [ht, Option.bind_some] at h
          match hf : firstFive t with
          | none => rw [hf] at h; exact absurd rfl h
          | some (a, b, c, d, e) =>
            have hts : t = y.subs := by
              have := wi_transform w2 [] [] y x (by simpa using hw)
              rw [hx] at this
              simp only [List.append_assoc, List.cons_append, List.nil_append, List.flatMap_nil, List.append_nil] at this ht
              rw [this] at ht
              exact (Option.some.inj ht).symm
            obtain ⟨before, after, nm, axes, hbe, hb⟩ := wi_five_conv t a b c d e hf
            refine ⟨axes, a, b, c, d, e, w2, y.frame, before, after, nm, x.subs, ?_, hb, hv⟩
            rw [← hbe, hts, ← hx]
            simp

/-! ## C155 -/

/-- C155 (angles of the sky transform).  Without tangent-plane correction the reference angles are those of the first rotation by five angles in
the transform to the sky: from the angles v2/3600, -v3/3600, roll, dec, -ra it returns v2, v3, roll, ra, dec. -/
theorem C155_round_trip [CharZero α] (w : List (Step α)) (hw : WiNames w) (axes : List Char) (v2 v3 roll ra dec : α)
    (h : WiSky w axes (v2 / 3600) (-v3 / 3600) roll dec (-ra)) (hc : ∀ s ∈ w, s.frame ≠ "v2v3corr") :
    info w = some ⟨v2, v3, roll, ra, dec⟩ := by
  rw [wi_sky w hw axes _ _ _ _ _ h]
  have : (frames w).contains "v2v3corr" = false := by
    rw [← Bool.not_eq_true, List.contains_iff_mem]
    intro hm
    obtain ⟨s, hs, he⟩ := List.mem_map.1 hm
    exact hc s hs he
  rw [this, if_neg (by simp)]
  have h3600 : (3600 : α) ≠ 0 := by norm_num
  congr 2
  · field_simp
  · field_simp
  · ring

/-- C155 (tangent plane).  With a tangent-plane correction v2, v3 and roll are those of the rotation named `det_to_optic_axis` in front of it --
looked for from the frame after the velocity aberration correction if there is one, from `v2v3` otherwise --, while ra and dec stay those of the
transform to the sky. -/
theorem C155_tangent_plane [CharZero α] (w : List (Step α)) (hw : WiNames w) (axes : List Char) (v2 v3 roll ra dec a b c : α)
    (h : WiSky w axes a b c dec (-ra))
    (hc : ((∃ s ∈ w, s.frame = "v2v3vacorr") ∧ WiAxis w "v2v3vacorr" (v2 / 3600) (-v3 / 3600) roll)
      ∨ ((∀ s ∈ w, s.frame ≠ "v2v3vacorr") ∧ WiAxis w "v2v3" (v2 / 3600) (-v3 / 3600) roll)) :
    info w = some ⟨v2, v3, roll, ra, dec⟩ := by
  rw [wi_sky w hw axes _ _ _ _ _ h]
  have hcorr : ∀ frm, WiAxis w frm (v2 / 3600) (-v3 / 3600) roll → (frames w).contains "v2v3corr" = true := by
    rintro frm ⟨pre, mid, post, s0, f, axes, before, after, rfl, hf, -, -⟩
    rw [List.contains_iff_mem]
    exact List.mem_map.2 ⟨f, by simp, hf⟩
  have h3600 : (3600 : α) ≠ 0 := by norm_num
  have hres : (some (v2 / 3600, -v3 / 3600, roll)).map (fun x : α × α × α => (⟨3600 * x.1, -3600 * x.2.1, x.2.2, - -ra, dec⟩ : Info α))
      = some ⟨v2, v3, roll, ra, dec⟩ := by
    simp only [Option.map_some]
    congr 2
    · field_simp
    · field_simp
    · ring
  rcases hc with ⟨⟨s, hs, he⟩, hx⟩ | ⟨hn, hx⟩
  · have hv : (frames w).contains "v2v3vacorr" = true := by
      rw [List.contains_iff_mem]
      exact List.mem_map.2 ⟨s, hs, he⟩
    rw [hcorr _ hx, hv, if_pos rfl, if_pos rfl, wi_axis w hw _ _ _ _ hx]
    exact hres
  · have hv : (frames w).contains "v2v3vacorr" = false := by
      rw [← Bool.not_eq_true, List.contains_iff_mem]
      intro hm
      obtain ⟨s, hs, he⟩ := List.mem_map.1 hm
      exact hn s hs he
    rw [hcorr _ hx, hv, if_pos rfl, if_neg (by simp), wi_axis w hw _ _ _ _ hx]
    exact hres

/-- C155 (refusal).  The function returns angles exactly if the pipeline contains `v2v3`, ends with a transform to `world` with a rotation by
five angles and, if there is a frame `v2v3corr`, the transform to it from `v2v3vacorr` (from `v2v3` if there is no such frame) has exactly one
submodel named `det_to_optic_axis`, a rotation by three angles. -/
theorem C155_supported (w : List (Step α)) (hw : WiNames w) :
    info w ≠ none ↔ (∃ axes a b c d e, WiSky w axes a b c d e) ∧
      ((∃ s ∈ w, s.frame = "v2v3corr") → ∃ a b c,
        ((∃ s ∈ w, s.frame = "v2v3vacorr") → WiAxis w "v2v3vacorr" a b c) ∧
        ((∀ s ∈ w, s.frame ≠ "v2v3vacorr") → WiAxis w "v2v3" a b c)) := by
  have hmem : ∀ n : String, (frames w).contains n = true ↔ ∃ s ∈ w, s.frame = n := by
    intro n
    rw [List.contains_iff_mem]
    simp [frames]
  constructor
  · intro h
    obtain ⟨axes, a, b, c, d, e, hs⟩ := wi_sky_conv w hw h
    refine ⟨⟨axes, a, b, c, d, e, hs⟩, ?_⟩
    intro hc
    rw [wi_sky w hw axes a b c d e hs, if_pos ((hmem _).2 hc)] at h
    rw [Ne, Option.map_eq_none_iff] at h
    obtain ⟨⟨a, b, c⟩, hx⟩ := Option.ne_none_iff_exists'.1 h
    refine ⟨a, b, c, ?_, ?_⟩
    · intro hv
      rw [if_pos ((hmem _).2 hv)] at hx
      exact wi_axis_conv w _ a b c hx
    · intro hv
      have : ¬ (frames w).contains "v2v3vacorr" = true := by
        rw [hmem]
        rintro ⟨s, hs, he⟩
        exact hv s hs he
      rw [if_neg this] at hx
      exact wi_axis_conv w _ a b c hx
  · rintro ⟨⟨axes, a, b, c, d, e, hs⟩, hc⟩
    rw [wi_sky w hw axes a b c d e hs]
    split
    · rename_i hcc
      obtain ⟨a, b, c, h1, h2⟩ := hc ((hmem _).1 hcc)
      split
      · rename_i hv
        rw [wi_axis w hw _ a b c (h1 ((hmem _).1 hv))]
        simp
      · rename_i hv
        rw [wi_axis w hw _ a b c (h2 fun s hs he => hv ((hmem _).2 ⟨s, hs, he⟩))]
        simp
    · simp

omit [Field α] in
/-- C155 (corrector).  The corrector gets roll, v2 and v3 of the reference angles (not ra and dec), the rows of the catalog strictly inside the
bounding box -- all rows without one --, the name of the catalog and the group. -/
theorem C155_corrector [LinearOrder α] {ρ : Type} (x y : ρ → Option α) (box : Option ((α × α) × (α × α))) (refang : Info α) (cat : List ρ)
    (name : Option String) (group : String) :
    let r := corrector x y box refang cat name group
    r.roll = refang.roll ∧ r.v2 = refang.v2 ∧ r.v3 = refang.v3 ∧ r.name = name ∧ r.group = group ∧
    r.catalog = cat.filter fun s => match box with
      | none => true
      | some b => match x s, y s with
        | some u, some v => decide (b.1.1 < u) && decide (u < b.1.2) && (decide (b.2.1 < v) && decide (v < b.2.2))
        | _, _ => false := by
  refine ⟨rfl, rfl, rfl, rfl, rfl, ?_⟩
  show Catalog.filterBox x y cat box = _
  cases box with
  | none => simp [Catalog.filterBox]
  | some b =>
    unfold Catalog.filterBox
    apply List.filter_congr
    intro s _
    cases hx : x s <;> cases hy : y s <;> simp [hx, hy, Catalog.gt, Catalog.lt, Bool.and_assoc]

end

/-! ## The reference direction -/

open Verif.Aberration (Vec comb)

/-- Spec: unit vector towards increasing latitude at a direction (longitude, latitude) in degrees. -/
noncomputable def wiNorth (p : ℝ × ℝ) : Vec :=
  ⟨-Real.sin (p.2 * (Real.pi / 180)) * Real.cos (p.1 * (Real.pi / 180)), -Real.sin (p.2 * (Real.pi / 180)) * Real.sin (p.1 * (Real.pi / 180)),
    Real.cos (p.2 * (Real.pi / 180))⟩

/-- Spec: unit vector towards increasing longitude. -/
noncomputable def wiEast (p : ℝ × ℝ) : Vec := ⟨-Real.sin (p.1 * (Real.pi / 180)), Real.cos (p.1 * (Real.pi / 180)), 0⟩

/-- Spec: the direction (longitude, latitude). -/
noncomputable def wiDir (p : ℝ × ℝ) : Vec :=
  ⟨Real.cos (p.2 * (Real.pi / 180)) * Real.cos (p.1 * (Real.pi / 180)), Real.cos (p.2 * (Real.pi / 180)) * Real.sin (p.1 * (Real.pi / 180)),
    Real.sin (p.2 * (Real.pi / 180))⟩

theorem wi_turns (a b c d e : ℝ) (v : Vec) :
    turns ['z', 'y', 'x', 'y', 'z'] [a, b, c, d, e] v = turn 'z' e (turn 'y' d (turn 'x' c (turn 'y' b (turn 'z' a v)))) := rfl

theorem wi_ref_dir (a b c d e : ℝ) : turns ['z', 'y', 'x', 'y', 'z'] [a, b, c, d, e] (wiDir (a, -b)) = wiDir (-e, d) := by
  have h1 := Real.sin_sq_add_cos_sq (a * (Real.pi / 180))
  have h2 := Real.sin_sq_add_cos_sq (b * (Real.pi / 180))
  have e1 : turn 'z' a (wiDir (a, -b)) = ⟨Real.cos (b * (Real.pi / 180)), 0, -Real.sin (b * (Real.pi / 180))⟩ := by
    simp only [turn, wiDir, Angles.rad, neg_mul, Real.cos_neg, Real.sin_neg, Char.reduceEq, if_false]
    congr 1
    · linear_combination Real.cos (b * (Real.pi / 180)) * h1
    · ring
  have e2 : turn 'y' b ⟨Real.cos (b * (Real.pi / 180)), 0, -Real.sin (b * (Real.pi / 180))⟩ = ⟨1, 0, 0⟩ := by
    simp only [turn, Angles.rad, Char.reduceEq, if_false, if_true]
    congr 1
    · linear_combination h2
    · ring
  rw [wi_turns, e1, e2]
  simp only [turn, wiDir, Angles.rad, neg_mul, Real.cos_neg, Real.sin_neg, Char.reduceEq, if_false, if_true]
  congr 1 <;> ring

theorem wi_ref_north (a b c d e : ℝ) : turns ['z', 'y', 'x', 'y', 'z'] [a, b, c, d, e] (wiNorth (a, -b))
    = comb (Real.cos (c * (Real.pi / 180))) (wiNorth (-e, d)) (Real.sin (c * (Real.pi / 180))) (wiEast (-e, d)) := by
  have h1 := Real.sin_sq_add_cos_sq (a * (Real.pi / 180))
  have h2 := Real.sin_sq_add_cos_sq (b * (Real.pi / 180))
  have e1 : turn 'z' a (wiNorth (a, -b)) = ⟨Real.sin (b * (Real.pi / 180)), 0, Real.cos (b * (Real.pi / 180))⟩ := by
    simp only [turn, wiNorth, Angles.rad, neg_mul, Real.cos_neg, Real.sin_neg, Char.reduceEq, if_false]
    congr 1
    · linear_combination Real.sin (b * (Real.pi / 180)) * h1
    · ring
  have e2 : turn 'y' b ⟨Real.sin (b * (Real.pi / 180)), 0, Real.cos (b * (Real.pi / 180))⟩ = ⟨0, 0, 1⟩ := by
    simp only [turn, Angles.rad, Char.reduceEq, if_false, if_true]
    congr 1
    · ring
    · linear_combination h2
  rw [wi_turns, e1, e2]
  simp only [turn, wiNorth, wiEast, comb, Angles.rad, neg_mul, Real.cos_neg, Real.sin_neg, Char.reduceEq, if_false, if_true]
  congr 1 <;> ring

/-- C155 (meaning of the angles).  If the five rotations of the transform to the sky are about the axes z, y, x, y, z and no tangent plane is
there, the returned (v2, v3) -- in arc seconds -- is the direction that the transform takes to the returned (ra, dec), and the returned roll is the
position angle, from north towards east, of the direction of increasing v3 at that point. -/
theorem C155_meaning (w : List (Step ℝ)) (hw : WiNames w) (a b c d e : ℝ) (h : WiSky w ['z', 'y', 'x', 'y', 'z'] a b c d e)
    (hc : ∀ s ∈ w, s.frame ≠ "v2v3corr") :
    ∃ i, info w = some i ∧
      turns ['z', 'y', 'x', 'y', 'z'] [a, b, c, d, e] (wiDir (i.v2 / 3600, i.v3 / 3600)) = wiDir (i.ra, i.dec) ∧
      turns ['z', 'y', 'x', 'y', 'z'] [a, b, c, d, e] (wiNorth (i.v2 / 3600, i.v3 / 3600))
        = comb (Real.cos (i.roll * (Real.pi / 180))) (wiNorth (i.ra, i.dec)) (Real.sin (i.roll * (Real.pi / 180))) (wiEast (i.ra, i.dec)) := by
  have hi := C155_round_trip w hw ['z', 'y', 'x', 'y', 'z'] (3600 * a) (-3600 * b) c (-e) d
    (by
      have e1 : 3600 * a / 3600 = a := by ring
      have e2 : -(-3600 * b) / 3600 = b := by ring
      rw [e1, e2, neg_neg]
      exact h) hc
  refine ⟨_, hi, ?_, ?_⟩
  · have e1 : 3600 * a / 3600 = a := by ring
    have e2 : -3600 * b / 3600 = -b := by ring
    simp only [e1, e2]
    exact wi_ref_dir a b c d e
  · have e1 : 3600 * a / 3600 = a := by ring
    have e2 : -3600 * b / 3600 = -b := by ring
    simp only [e1, e2]
    exact wi_ref_north a b c d e

/-! ## Examples -/

/-- A pipeline as `assign_wcs` builds it: detector, v2v3, velocity aberration, world. -/
def wiExW (α : Type) [Field α] : List (Step α) :=
  [⟨"detector", [⟨some "distortion", .other⟩]⟩, ⟨"v2v3", [⟨some "scale", .other⟩]⟩,
   ⟨"v2v3vacorr", [⟨none, .other⟩, ⟨some "v23tosky", .rotation ['z', 'y', 'x', 'y', 'z'] [120 / 3600, - -500 / 3600, 30, -20, -150]⟩, ⟨none, .other⟩]⟩,
   ⟨"world", []⟩]

/-- The same after alignment: a tangent-plane correction between v2v3vacorr and v2v3corr. -/
def wiExC (α : Type) [Field α] : List (Step α) :=
  [⟨"detector", [⟨some "distortion", .other⟩]⟩, ⟨"v2v3", [⟨some "scale", .other⟩]⟩,
   ⟨"v2v3vacorr", [⟨none, .other⟩, ⟨some "det_to_optic_axis", .rotation ['z', 'y', 'x'] [121 / 3600, - -501 / 3600, 31]⟩, ⟨none, .other⟩]⟩,
   ⟨"v2v3corr", [⟨none, .other⟩, ⟨some "v23tosky", .rotation ['z', 'y', 'x', 'y', 'z'] [120 / 3600, - -500 / 3600, 30, -20, -150]⟩, ⟨none, .other⟩]⟩,
   ⟨"world", []⟩]

theorem wi_ex_names (α : Type) [Field α] : WiNames (wiExW α) := by
  show ["detector", "v2v3", "v2v3vacorr", "world"].Nodup
  decide

theorem wi_ex_sky (α : Type) [Field α] : WiSky (wiExW α) ['z', 'y', 'x', 'y', 'z'] (120 / 3600) (- -500 / 3600) 30 (-20) (-150) := by
  refine ⟨[⟨"detector", [⟨some "distortion", .other⟩]⟩, ⟨"v2v3", [⟨some "scale", .other⟩]⟩], "v2v3vacorr", [⟨none, .other⟩], [⟨none, .other⟩],
    some "v23tosky", [], rfl, ?_, ⟨"v2v3", [⟨some "scale", .other⟩]⟩, by simp [wiExW], rfl⟩
  rintro s hs ⟨axes, l, hk, -⟩
  simp only [List.mem_singleton] at hs
  subst hs
  cases hk

example : info (wiExW ℚ) = some ⟨120, -500, 30, 150, -20⟩ :=
  C155_round_trip _ (wi_ex_names ℚ) ['z', 'y', 'x', 'y', 'z'] 120 (-500) 30 150 (-20) (wi_ex_sky ℚ) (by simp [wiExW])

example : ∃ i, info (wiExW ℝ) = some i :=
  (C155_meaning _ (wi_ex_names ℝ) _ _ _ _ _ (wi_ex_sky ℝ) (by simp [wiExW])).imp fun _ h => h.1

example : info (wiExC ℚ) = some ⟨121, -501, 31, 150, -20⟩ := by
  refine C155_tangent_plane (wiExC ℚ) ?_ ['z', 'y', 'x', 'y', 'z'] 121 (-501) 31 150 (-20) (120 / 3600) (- -500 / 3600) 30 ?_ (Or.inl ⟨?_, ?_⟩)
  · show ["detector", "v2v3", "v2v3vacorr", "v2v3corr", "world"].Nodup
    decide
  · refine ⟨(wiExC ℚ).take 3, "v2v3corr", [⟨none, .other⟩], [⟨none, .other⟩], some "v23tosky", [], rfl, ?_,
      ⟨"v2v3", [⟨some "scale", .other⟩]⟩, by simp [wiExC], rfl⟩
    rintro s hs ⟨axes, l, hk, -⟩
    simp only [List.mem_singleton] at hs
    subst hs
    cases hk
  · exact ⟨_, List.getElem_mem (l := wiExC ℚ) (n := 2) (by simp [wiExC]), rfl⟩
  · exact ⟨(wiExC ℚ).take 2, [], (wiExC ℚ).drop 4, _, _, ['z', 'y', 'x'], [⟨none, .other⟩], [⟨none, .other⟩], rfl, rfl, rfl, by simp⟩

/-- Without the frame v2v3 the WCS is refused. -/
example : info ((wiExW ℚ).drop 2) = none := by
  by_contra h
  obtain ⟨axes, a, b, c, d, e, -, -, -, -, -, -, -, -, s, hs, he⟩ := ((C155_supported _ (by
    show ["v2v3vacorr", "world"].Nodup
    decide)).1 h).1
  simp only [wiExW, List.drop_succ_cons, List.drop_zero, List.mem_cons, List.not_mem_nil, or_false] at hs
  rcases hs with rfl | rfl <;> simp at he

example : (corrector (fun r : Option ℚ × Option ℚ => r.1) (fun r => r.2) (some ((0, 10), (0, 20))) ⟨1, 2, 3, 4, 5⟩
    [(some 5, some 15), (some 10, some 15), (none, some 3)] (some "cat") "1").catalog = [(some 5, some 15)] := by
  decide +kernel

end Verif.Thm
