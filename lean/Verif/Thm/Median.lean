import Verif.Model.Outlier
import Verif.Proof.Dark
import Mathlib.Algebra.Order.Ring.Rat
import Mathlib.Algebra.Field.Rat
import Mathlib.Data.List.Induction
import Mathlib.Tactic.Ring
import Mathlib.Tactic.Linarith

/-!
# C46, C47, C78: median of a stack of images, in memory and on disk
-/

namespace Verif.Thm

open Verif.Outlier

set_option linter.unusedSectionVars false

variable {β γ : Type}

/-! ### Specification -/

/-- A rectangular image. -/
def MdShape (rows cols : Nat) (img : Img β) : Prop := img.length = rows ∧ ∀ row ∈ img, row.length = cols

/-- Pixel `(r, c)`. -/
def mdPix (img : Img β) (r c : Nat) : Option β := img[r]?.bind fun row => row[c]?

/-! ### Helper lemmas -/

theorem md_hasShape (img : Img β) (rows cols : Nat) : hasShape img rows cols = true ↔ MdShape rows cols img := by
  simp [hasShape, MdShape]

theorem md_flatten_get (L : List (List β)) (n : Nat) (h : ∀ l ∈ L, l.length = n) (i j : Nat) (hj : j < n) :
    L.flatten[i * n + j]? = L[i]?.bind fun l => l[j]? := by
  induction L generalizing i with
  | nil => simp
  | cons a t ih =>
    have ha : a.length = n := h a (by simp)
    cases i with
    | zero =>
      simp only [List.flatten_cons, Nat.zero_mul, Nat.zero_add]
      rw [List.getElem?_append_left (by omega)]
      simp
    | succ i =>
      simp only [List.flatten_cons]
      rw [List.getElem?_append_right (by rw [ha]; nlinarith)]
      rw [ha, show (i + 1) * n + j - n = i * n + j by rw [Nat.succ_mul]; omega]
      rw [ih (fun l hl => h l (by simp [hl]))]
      simp

theorem md_sectionRows_pos (n rows cols item buffer : Nat) : 1 ≤ sectionRows n rows cols item buffer := by
  simp only [sectionRows]
  generalize (if buffer = 0 then rows * cols * item else buffer) / n / (cols * item) = q
  split <;> omega

theorem md_sections (rows s : Nat) (hs : 1 ≤ s) (hr : 1 ≤ rows) :
    1 ≤ ceilDiv rows s ∧ (ceilDiv rows s - 1) * s < rows ∧ rows ≤ ceilDiv rows s * s := by
  unfold ceilDiv
  have h1 := Nat.div_add_mod (rows + s - 1) s
  have h2 := Nat.mod_lt (rows + s - 1) (show 0 < s by omega)
  set q := (rows + s - 1) / s
  have hq : 1 ≤ q := by
    rw [Nat.one_le_div_iff (by omega)]
    omega
  refine ⟨hq, ?_, ?_⟩
  · rw [Nat.sub_mul]
    have : q * s = s * q := Nat.mul_comm _ _
    omega
  · have : q * s = s * q := Nat.mul_comm _ _
    omega

/-- Rows of section `i`. -/
def mdRows (rows s m i : Nat) : Nat := if i = m - 1 then rows - (m - 1) * s else s

theorem md_mdRows (rows s i : Nat) (hs : 1 ≤ s) (hr : 1 ≤ rows) (hi : i < ceilDiv rows s) :
    i * s + mdRows rows s (ceilDiv rows s) i = min (i * s + s) rows := by
  obtain ⟨h1, h2, h3⟩ := md_sections rows s hs hr
  unfold mdRows
  set m := ceilDiv rows s
  split
  · rename_i h
    have : m * s = (m - 1) * s + s := by
      conv_lhs => rw [show m = (m - 1) + 1 by omega, Nat.succ_mul]
    subst h
    omega
  · rename_i h
    have hle : (i + 1) * s ≤ (m - 1) * s := Nat.mul_le_mul_right _ (by omega)
    rw [Nat.succ_mul] at hle
    omega

/-- The rows of an image that go to section `i`. -/
def mdSlice (rows s i : Nat) (img : Img β) : Img β := rowSlice img (i * s) (min (i * s + s) rows)

theorem md_slice_shape (rows cols s i : Nat) (hs : 1 ≤ s) (hr : 1 ≤ rows) (hi : i < ceilDiv rows s) (img : Img β)
    (h : MdShape rows cols img) : MdShape (mdRows rows s (ceilDiv rows s) i) cols (mdSlice rows s i img) := by
  refine ⟨?_, fun row hrow => h.2 row ?_⟩
  · have := md_mdRows rows s i hs hr hi
    simp only [mdSlice, rowSlice, List.length_drop, List.length_take, h.1]
    omega
  · exact List.mem_of_mem_take (List.mem_of_mem_drop hrow)

theorem md_slice_get (rows s i r : Nat) (hr : r < mdRows rows s (ceilDiv rows s) i) (hs : 1 ≤ s) (hrows : 1 ≤ rows)
    (hi : i < ceilDiv rows s) (img : Img β) : (mdSlice rows s i img)[r]? = img[i * s + r]? := by
  have := md_mdRows rows s i hs hrows hi
  simp only [mdSlice, rowSlice, List.getElem?_drop, List.getElem?_take]
  rw [if_pos (by omega)]

/-- The state after adding images: the files hold the rows of the images one after the other. -/
def mdState (n rows cols item buffer : Nat) (imgs : List (Img β)) : Disk β :=
  let s := sectionRows n rows cols item buffer
  let m := nSections n rows cols item buffer
  { rows, cols, nsec := m, srows := s, nadds := imgs.length
    arrs := (List.range m).map fun i =>
      { rows := mdRows rows s m i, cols, file := (imgs.map (mdSlice rows s i)).flatten.flatten, count := imgs.length } }

theorem md_state_init (n rows cols item buffer : Nat) :
    Disk.init β n rows cols item buffer = mdState n rows cols item buffer [] := by
  simp [Disk.init, mdState, mdRows]

theorem md_state_add (n rows cols item buffer : Nat) (imgs : List (Img β)) (img : Img β) (hr : 1 ≤ rows)
    (himg : MdShape rows cols img) (hlt : imgs.length < nSections n rows cols item buffer) :
    (mdState n rows cols item buffer imgs).add img = some (mdState n rows cols item buffer (imgs ++ [img])) := by
  have hsh : hasShape img rows cols = true := (md_hasShape _ _ _).mpr himg
  have hs := md_sectionRows_pos n rows cols item buffer
  unfold Disk.add
  rw [if_neg (by simpa [mdState] using hlt), if_neg (by simp [mdState, hsh])]
  have hmap : ((mdState n rows cols item buffer imgs).arrs.zipIdx.mapM fun (p : Arr β × Nat) =>
      p.1.append (rowSlice img (p.2 * (mdState n rows cols item buffer imgs).srows)
        (min (p.2 * (mdState n rows cols item buffer imgs).srows + (mdState n rows cols item buffer imgs).srows)
          (mdState n rows cols item buffer imgs).rows))) =
      some ((mdState n rows cols item buffer imgs).arrs.zipIdx.map fun (p : Arr β × Nat) =>
        { p.1 with file := p.1.file ++ (mdSlice rows (sectionRows n rows cols item buffer) p.2 img).flatten,
                   count := p.1.count + 1 }) := by
    apply Verif.Dark.mapM_some_of_forall
    rintro ⟨a, i⟩ hp
    rw [List.mem_zipIdx_iff_getElem?] at hp
    have hi : i < nSections n rows cols item buffer := by
      have := (List.getElem?_eq_some_iff.mp hp).1
      simpa [mdState] using this
    simp only [mdState, List.getElem?_map, List.getElem?_range hi, Option.map_some, Option.some.injEq] at hp
    subst hp
    have := md_slice_shape rows cols _ i hs hr hi img himg
    simp only [Arr.append]
    rw [if_pos]
    · rfl
    · exact (md_hasShape _ _ _).mpr this
  rw [hmap]
  simp only [Option.map_some, Option.some.injEq]
  simp only [mdState, Disk.mk.injEq, List.length_append, List.length_singleton, true_and]
  apply List.ext_getElem?
  intro i
  by_cases hi : i < nSections n rows cols item buffer
  · simp [hi]
  · simp [hi]

theorem md_addAll_append (d : Disk β) (a b : List (Img β)) :
    d.addAll (a ++ b) = (d.addAll a).bind fun e => e.addAll b := by
  simp only [Disk.addAll, List.foldl_append]
  cases List.foldl (fun acc img => acc.bind fun d => d.add img) (some d) a with
  | some e => rfl
  | none =>
    simp only [Option.bind_none]
    induction b with
    | nil => rfl
    | cons x t ih => simpa using ih

/-- The computer accepts exactly as many images as it has sections. -/
theorem md_addAll (n rows cols item buffer : Nat) (imgs : List (Img β)) (hr : 1 ≤ rows)
    (himg : ∀ img ∈ imgs, MdShape rows cols img) :
    (Disk.init β n rows cols item buffer).addAll imgs =
      if imgs.length ≤ nSections n rows cols item buffer then some (mdState n rows cols item buffer imgs) else none := by
  induction imgs using List.reverseRecOn with
  | nil => simp [Disk.addAll, md_state_init]
  | append_singleton l a ih =>
    rw [md_addAll_append, ih fun img h => himg img (by simp [h])]
    simp only [List.length_append, List.length_singleton]
    by_cases h : l.length + 1 ≤ nSections n rows cols item buffer
    · rw [if_pos (by omega), if_pos h]
      simp only [Option.bind_some, Disk.addAll, List.foldl_cons, List.foldl_nil]
      exact md_state_add n rows cols item buffer l a hr (himg a (by simp)) (by omega)
    · rw [if_neg h]
      split
      · rename_i h2
        simp only [Option.bind_some, Disk.addAll, List.foldl_cons, List.foldl_nil]
        unfold Disk.add
        rw [if_pos]
        simp only [mdState]
        omega
      · rfl

theorem md_foldl_update {ι : Type} (l : List ι) (P : ι → Nat → Nat → Prop) [∀ p r c, Decidable (P p r c)]
    (v : ι → Nat → Nat → γ) (init : Nat → Nat → γ) (r c : Nat) (x : γ) (hv : ∀ p ∈ l, P p r c → v p r c = x)
    (hex : (∃ p ∈ l, P p r c) ∨ init r c = x) :
    (l.foldl (fun out p r c => if P p r c then v p r c else out r c) init) r c = x := by
  induction l generalizing init with
  | nil => simpa using hex
  | cons a t ih =>
    simp only [List.foldl_cons]
    refine ih _ (fun p hp => hv p (by simp [hp])) ?_
    by_cases ha : P a r c
    · right
      simp only [ha, if_true]
      exact hv a (by simp) ha
    · rcases hex with ⟨p, hp, hP⟩ | h
      · rcases List.mem_cons.mp hp with rfl | hp
        · exact absurd hP ha
        · exact Or.inl ⟨p, hp, hP⟩
      · right
        simp only [ha, if_false]
        exact h

theorem md_filterMap_range (f : Nat → Option β) (l : List (Option β)) (h : ∀ k < l.length, l[k]? = some (f k)) :
    (List.range l.length).filterMap f = l.filterMap id := by
  have : l = (List.range l.length).map f := by
    apply List.ext_getElem?
    intro k
    by_cases hk : k < l.length
    · rw [h k hk]
      simp [hk]
    · simp [hk]
  conv_rhs => rw [this]
  rw [List.filterMap_map]
  rfl

/-! ### C46 -/

/-- **C46.** Whatever the buffer size, if the computer accepts the images, every pixel of the median computed section by
section on disk is the median computed in memory from the same images; `med` is any statistic, `np.nanmedian` in the
code. -/
theorem C46_disk_is_memory (med : List β → γ) (nan : γ) (n rows cols item buffer : Nat) (hr : 1 ≤ rows)
    (imgs : List (Img β)) (himg : ∀ img ∈ imgs, MdShape rows cols img) (d : Disk β)
    (hd : (Disk.init β n rows cols item buffer).addAll imgs = some d) (r c : Nat) (hrr : r < rows) (hc : c < cols) :
    d.median med nan r c = memMedian med imgs r c := by
  rw [md_addAll n rows cols item buffer imgs hr himg] at hd
  split at hd
  · rename_i hlen
    simp only [Option.some.injEq] at hd
    subst hd
    have hs := md_sectionRows_pos n rows cols item buffer
    set s := sectionRows n rows cols item buffer with hsdef
    have hm : nSections n rows cols item buffer = ceilDiv rows s := rfl
    obtain ⟨h1, h2, h3⟩ := md_sections rows s hs hr
    unfold Disk.median
    refine md_foldl_update _ (fun (p : Arr β × Nat) r c => p.2 * (mdState n rows cols item buffer imgs).srows ≤ r ∧
      r < min ((p.2 + 1) * (mdState n rows cols item buffer imgs).srows) (mdState n rows cols item buffer imgs).rows ∧
      c < (mdState n rows cols item buffer imgs).cols) (fun p r c => median3D med p.1 (r - p.2 *
        (mdState n rows cols item buffer imgs).srows) c) _ r c _ ?_ (Or.inl ?_)
    · rintro ⟨a, i⟩ hp ⟨hp1, hp2, -⟩
      rw [List.mem_zipIdx_iff_getElem?] at hp
      have hi : i < ceilDiv rows s := by
        have := (List.getElem?_eq_some_iff.mp hp).1
        simpa [mdState, hm] using this
      simp only [mdState, List.getElem?_map, hm, List.getElem?_range hi, Option.map_some, Option.some.injEq] at hp
      simp only [mdState, ← hsdef] at hp1 hp2 ⊢
      subst hp
      have hrow := md_mdRows rows s i hs hr hi
      rw [Nat.succ_mul] at hp2
      have hlt : r - i * s < mdRows rows s (ceilDiv rows s) i := by omega
      unfold median3D memMedian
      congr 1
      have hmapp : imgs.filterMap (fun img => img[r]?.bind fun row => row[c]?) =
          (imgs.map fun img => mdPix img r c).filterMap id := by
        rw [List.filterMap_map]
        rfl
      rw [hmapp]
      have hl : (imgs.map fun img => mdPix img r c).length = imgs.length := by simp
      rw [← md_filterMap_range _ _ ?_, hl]
      intro k hk
      rw [hl] at hk
      simp only [Arr.read]
      rw [if_pos ⟨hk, hlt, hc⟩]
      have hslen : ∀ l ∈ imgs.map (mdSlice rows s i), l.length = mdRows rows s (ceilDiv rows s) i := by
        intro l hl
        obtain ⟨img, himg', rfl⟩ := List.mem_map.mp hl
        exact (md_slice_shape rows cols s i hs hr hi img (himg img himg')).1
      have hrlen : ∀ l ∈ (imgs.map (mdSlice rows s i)).flatten, l.length = cols := by
        intro l hl
        obtain ⟨sl, hsl, hl2⟩ := List.mem_flatten.mp hl
        obtain ⟨img, himg', rfl⟩ := List.mem_map.mp hsl
        exact (md_slice_shape rows cols s i hs hr hi img (himg img himg')).2 l hl2
      rw [md_flatten_get _ cols hrlen _ _ hc, md_flatten_get _ _ hslen _ _ hlt]
      simp only [List.getElem?_map, List.getElem?_eq_getElem hk, Option.map_some, Option.bind_some, Option.some.injEq]
      rw [md_slice_get rows s i _ hlt hs hr hi]
      rw [show i * s + (r - i * s) = r by omega]
      rfl
    · have hsr : (mdState n rows cols item buffer imgs).srows = s := rfl
      have hro : (mdState n rows cols item buffer imgs).rows = rows := rfl
      have hdiv := Nat.div_add_mod r s
      have hmod := Nat.mod_lt r (show 0 < s by omega)
      have hcomm : r / s * s = s * (r / s) := Nat.mul_comm _ _
      have hi : r / s < ceilDiv rows s := by
        rw [Nat.div_lt_iff_lt_mul (by omega)]
        omega
      refine ⟨((mdState n rows cols item buffer imgs).arrs[r / s]'(by simpa [mdState, hm] using hi), r / s), ?_, ?_, ?_, hc⟩
      · rw [List.mem_zipIdx_iff_getElem?]
        simp
      · rw [hsr]
        simp only
        omega
      · rw [hsr, hro]
        simp only
        rw [Nat.succ_mul]
        omega
  · simp at hd

/-! ### C47 -/

/-- **C47**, exactly what holds: the on-disk computer accepts a stack of well-shaped images if and only if their number
does not exceed the number of *sections*.  Missing: it should be the announced number `n`. -/
theorem C47_accepts_partial (n rows cols item buffer : Nat) (imgs : List (Img β)) (hr : 1 ≤ rows)
    (himg : ∀ img ∈ imgs, MdShape rows cols img) :
    ((Disk.init β n rows cols item buffer).addAll imgs).isSome ↔ imgs.length ≤ nSections n rows cols item buffer := by
  rw [md_addAll n rows cols item buffer imgs hr himg]
  split
  · rename_i h; simp [h]
  · rename_i h; simp [h]

/-- With the default buffer the announced number is accepted exactly when it does not exceed the number of rows. -/
theorem C47_default_buffer_partial (n rows cols item : Nat) (imgs : List (Img β)) (hn : 1 ≤ n) (hr : 1 ≤ rows)
    (hc : 1 ≤ cols) (hitem : 1 ≤ item) (himg : ∀ img ∈ imgs, MdShape rows cols img) (hlen : imgs.length = n) :
    ((Disk.init β n rows cols item 0).addAll imgs).isSome ↔ n ≤ rows := by
  rw [C47_accepts_partial n rows cols item 0 imgs hr himg, hlen]
  have hsec : sectionRows n rows cols item 0 = if rows / n = 0 then 1 else rows / n := by
    have hmul : 0 < cols * item := Nat.mul_pos hc hitem
    have : rows * cols * item / n / (cols * item) = rows / n := by
      rw [Nat.div_div_eq_div_mul, Nat.mul_assoc, Nat.mul_comm n, Nat.mul_comm rows,
        Nat.mul_div_mul_left _ _ hmul]
    simp only [sectionRows, if_true, this]
    rw [Nat.min_eq_right (Nat.div_le_self _ _)]
  have hs := md_sectionRows_pos n rows cols item 0
  obtain ⟨h1, h2, h3⟩ := md_sections rows (sectionRows n rows cols item 0) hs hr
  unfold nSections
  set s := sectionRows n rows cols item 0
  set m := ceilDiv rows s
  have hdm := Nat.div_add_mod rows n
  constructor
  · intro h
    have hm : m ≤ rows := by
      by_contra hcon
      have : rows * 1 ≤ (m - 1) * s := Nat.mul_le_mul (by omega) hs
      omega
    omega
  · intro h
    have hq : 1 ≤ rows / n := (Nat.one_le_div_iff (by omega)).mpr h
    rw [if_neg (by omega)] at hsec
    by_contra hcon
    have hlt : m * s ≤ (n - 1) * s := Nat.mul_le_mul_right _ (by omega)
    have hns : n * s = (n - 1) * s + s := by
      conv_lhs => rw [show n = (n - 1) + 1 by omega, Nat.succ_mul]
    have : n * s = n * (rows / n) := by rw [hsec]
    omega

/-- **C47 fails** whenever the buffer holds the whole stack: there is one section and the second image is refused. -/
theorem C47_large_buffer_refuses (n rows cols item buffer : Nat) (imgs : List (Img β)) (hn : 2 ≤ n) (hr : 1 ≤ rows)
    (hc : 1 ≤ cols) (hitem : 1 ≤ item) (hb : n * (rows * cols * item) ≤ buffer)
    (himg : ∀ img ∈ imgs, MdShape rows cols img) (hlen : imgs.length = n) :
    (Disk.init β n rows cols item buffer).addAll imgs = none := by
  have h := C47_accepts_partial n rows cols item buffer imgs hr himg
  have hmul : 0 < cols * item := Nat.mul_pos hc hitem
  have hpos : 0 < n * (rows * cols * item) := by
    have : 0 < rows * cols * item := Nat.mul_pos (Nat.mul_pos hr hc) hitem
    exact Nat.mul_pos (by omega) this
  have hsec : sectionRows n rows cols item buffer = rows := by
    have hle : rows ≤ buffer / n / (cols * item) := by
      rw [Nat.div_div_eq_div_mul, Nat.le_div_iff_mul_le (Nat.mul_pos (by omega) hmul)]
      calc rows * (n * (cols * item)) = n * (rows * cols * item) := by ring
        _ ≤ buffer := hb
    simp only [sectionRows]
    rw [if_neg (show buffer ≠ 0 by omega), Nat.min_eq_left hle, if_neg (by omega)]
  have hone : nSections n rows cols item buffer = 1 := by
    unfold nSections ceilDiv
    rw [hsec]
    rw [show rows + rows - 1 = rows - 1 + rows by omega, Nat.add_div_right _ (by omega),
      Nat.div_eq_of_lt (by omega)]
  rw [hone, hlen] at h
  cases hh : (Disk.init β n rows cols item buffer).addAll imgs with
  | none => rfl
  | some d =>
    rw [hh] at h
    simp at h
    omega

/-! ### C78 -/

/-- **C78.** The sections tile the rows of the image: every row belongs to exactly one section, no section is empty, and if
the buffer holds at least one row of each image, the data of one section of all images fit in the buffer. -/
theorem C78_sections (n rows cols item buffer : Nat) (hr : 1 ≤ rows) (hn : 1 ≤ n) (hc : 1 ≤ cols) (hi : 1 ≤ item) :
    (∀ r < rows, ∃! i, i < nSections n rows cols item buffer ∧ i * sectionRows n rows cols item buffer ≤ r ∧
      r < min ((i + 1) * sectionRows n rows cols item buffer) rows) ∧
    (∀ i < nSections n rows cols item buffer, i * sectionRows n rows cols item buffer < rows) ∧
    (1 ≤ sectionRows n rows cols item buffer ∧ sectionRows n rows cols item buffer ≤ rows) ∧
    (n * cols * item ≤ buffer → n * (sectionRows n rows cols item buffer) * cols * item ≤ buffer) := by
  have hs := md_sectionRows_pos n rows cols item buffer
  obtain ⟨h1, h2, h3⟩ := md_sections rows (sectionRows n rows cols item buffer) hs hr
  unfold nSections
  refine ⟨?_, ?_, ⟨hs, ?_⟩, ?_⟩
  · intro r hrr
    set s := sectionRows n rows cols item buffer
    have hdiv := Nat.div_add_mod r s
    have hmod := Nat.mod_lt r (show 0 < s by omega)
    have hcomm : r / s * s = s * (r / s) := Nat.mul_comm _ _
    refine ⟨r / s, ⟨?_, by omega, ?_⟩, ?_⟩
    · rw [Nat.div_lt_iff_lt_mul (by omega)]
      omega
    · rw [Nat.succ_mul]
      omega
    · rintro i ⟨-, h4, h5⟩
      rw [Nat.succ_mul] at h5
      symm
      exact Nat.div_eq_of_lt_le h4 (by rw [Nat.succ_mul]; omega)
  · intro i hi'
    refine lt_of_le_of_lt (Nat.mul_le_mul_right _ (by omega)) h2
  · simp only [sectionRows]
    generalize (if buffer = 0 then rows * cols * item else buffer) / n / (cols * item) = q
    split <;> omega
  · intro hb
    have hmul : 0 < cols * item := Nat.mul_pos hc hi
    have hpos : 0 < n * cols * item := Nat.mul_pos (Nat.mul_pos hn hc) hi
    have hle : sectionRows n rows cols item buffer ≤ buffer / (n * (cols * item)) := by
      have hge : 1 ≤ buffer / (n * (cols * item)) := by
        rw [Nat.one_le_div_iff (Nat.mul_pos hn hmul), ← Nat.mul_assoc]
        exact hb
      simp only [sectionRows, Nat.div_div_eq_div_mul]
      rw [if_neg (show buffer ≠ 0 by omega)]
      split <;> omega
    calc n * (sectionRows n rows cols item buffer) * cols * item
        = sectionRows n rows cols item buffer * (n * (cols * item)) := by ring
      _ ≤ buffer / (n * (cols * item)) * (n * (cols * item)) := Nat.mul_le_mul_right _ hle
      _ ≤ buffer := Nat.div_mul_le_self _ _

/-! ### Examples -/

/-- Three images of three rows and two columns. -/
def mdImgs : List (Img (Option ℚ)) :=
  [[[some 1, none], [some 4, some 4], [some 0, some 0]], [[some 2, none], [some 3, none], [some 1, some 7]],
    [[some 9, none], [some 8, some 6], [some 2, some 1]]]

example : (∀ img ∈ mdImgs, MdShape 3 2 img) := by
  intro img h
  simp only [mdImgs, List.mem_cons, List.not_mem_nil, or_false] at h
  rcases h with rfl | rfl | rfl <;> simp [MdShape]

example : ((Disk.init (Option ℚ) 3 3 2 4 0).addAll mdImgs).map (fun d =>
    (List.range 3).map fun r => (List.range 2).map fun c => d.median Verif.Jump.nanmedian none r c) =
    some [[some 2, none], [some 4, some 5], [some 1, some 1]] := by decide +kernel

/-- With a large buffer the three announced images are not accepted. -/
example : ((Disk.init (Option ℚ) 3 3 2 4 1000).addAll mdImgs).isNone = true := by decide +kernel

/-- Two sections, of two rows and of one row. -/
example : sectionRows 3 3 2 4 48 = 2 ∧ nSections 3 3 2 4 48 = 2 := by decide

end Verif.Thm
