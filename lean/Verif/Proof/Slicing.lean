import Verif.Model.Slicing
import Mathlib.Tactic.Ring
import Mathlib.Tactic.Linarith
import Mathlib.Data.List.Flatten
import Mathlib.Algebra.BigOperators.Group.List.Basic

namespace Verif.Slicing

variable {α β : Type*}

theorem digit_sub_eq_zero {c : Char} (h : c.isDigit = true) : c.toNat - '0'.toNat = 0 ↔ c = '0' := by
  have h1 : 48 ≤ c.val ∧ c.val ≤ 57 := by
    simpa [Char.isDigit, UInt32.le_iff_toNat_le] using h
  have h0 : 48 ≤ c.toNat := h1.1
  have : '0'.toNat = 48 := rfl
  rw [this]
  constructor
  · intro hz
    have : c.toNat = 48 := by omega
    apply Char.ext
    apply UInt32.toNat_inj.mp
    exact this
  · rintro rfl; rfl

theorem toInt_foldl_eq_zero (s : List Char) (hs : ∀ c ∈ s, c.isDigit = true) (acc : Nat) :
    s.foldl (fun acc c => 10 * acc + (c.toNat - '0'.toNat)) acc = 0 ↔ acc = 0 ∧ ∀ c ∈ s, c = '0' := by
  induction s generalizing acc with
  | nil => simp
  | cons a s ih =>
    simp only [List.foldl_cons]
    rw [ih (fun c hc => hs c (List.mem_cons_of_mem _ hc))]
    have := digit_sub_eq_zero (hs a List.mem_cons_self)
    simp only [List.forall_mem_cons]
    rw [← this]
    constructor
    · rintro ⟨h1, h2⟩; exact ⟨by omega, by omega, h2⟩
    · rintro ⟨h1, h2, h3⟩; exact ⟨by omega, h3⟩

theorem rowsPerSlice_sum (n rows : Nat) (hn : 0 < n) : (rowsPerSlice n rows).sum = rows := by
  simp only [rowsPerSlice]
  have hm := Nat.mod_lt rows hn
  have hd := Nat.div_add_mod rows n
  split
  · obtain ⟨k, hk⟩ := Nat.exists_eq_add_of_lt hm
    simp only [List.sum_append, List.sum_replicate_nat]
    have : n - rows % n = k + 1 := by omega
    rw [this]
    calc rows % n * (rows / n + 1) + (k + 1) * (rows / n)
        = (rows % n + k + 1) * (rows / n) + rows % n := by ring
      _ = n * (rows / n) + rows % n := by rw [← hk]
      _ = rows := hd
  · have h0 : rows % n = 0 := by omega
    simp only [List.sum_replicate_nat]
    omega

theorem rowsPerSlice_length (n rows : Nat) (hn : 0 < n) : (rowsPerSlice n rows).length = n := by
  simp only [rowsPerSlice]
  have hm := Nat.mod_lt rows hn
  split
  · simp; omega
  · simp

theorem rowsPerSlice_mem (n rows m : Nat) (h : m ∈ rowsPerSlice n rows) : m = rows / n ∨ m = rows / n + 1 := by
  simp only [rowsPerSlice] at h
  split at h
  · rw [List.mem_append] at h
    rcases h with h | h
    · exact Or.inr (List.eq_of_mem_replicate h)
    · exact Or.inl (List.eq_of_mem_replicate h)
  · exact Or.inl (List.eq_of_mem_replicate h)

theorem sliceLoop_flatten (rd : RampData α) (ns : List Nat) (start : Nat) :
    ((sliceLoop rd start ns).map RampData.rows).flatten = (rd.rows.drop start).take ns.sum := by
  induction ns generalizing start with
  | nil => simp [sliceLoop]
  | cons n ns ih =>
    simp only [sliceLoop, List.map_cons, List.flatten_cons, ih, sliceRampData, rowSlice, List.sum_cons]
    rw [List.take_add, List.drop_drop]

theorem sliceLoop_lengths (rd : RampData α) (ns : List Nat) (start : Nat) (h : start + ns.sum ≤ rd.rows.length) :
    (sliceLoop rd start ns).map (fun s => s.rows.length) = ns := by
  induction ns generalizing start with
  | nil => rfl
  | cons n ns ih =>
    simp only [List.sum_cons] at h
    simp only [sliceLoop, List.map_cons, ih (start + n) (by omega), sliceRampData, rowSlice, List.length_take,
      List.length_drop]
    congr 1
    omega

theorem sliceLoop_suppress (rd : RampData α) (ns : List Nat) (start : Nat) :
    ∀ s ∈ sliceLoop rd start ns, s.suppressOneGroup = false := by
  induction ns generalizing start with
  | nil => simp [sliceLoop]
  | cons n ns ih =>
    intro s hs
    simp only [sliceLoop, List.mem_cons] at hs
    rcases hs with rfl | hs
    · rfl
    · exact ih _ s hs

/-- Filling consecutive slices produces their concatenation. -/
theorem assembleLoop_eq (out : List β) (start : Nat) (res : List (List β)) (ns : List Nat)
    (hlen : res.map List.length = ns) (h : start + ns.sum ≤ out.length) :
    assembleLoop out start res ns = out.take start ++ res.flatten ++ out.drop (start + ns.sum) := by
  induction res generalizing out start ns with
  | nil =>
    simp only [List.map_nil] at hlen
    subst hlen
    simp [assembleLoop]
  | cons r res ih =>
    cases ns with
    | nil => simp at hlen
    | cons n ns =>
      simp only [List.map_cons, List.cons.injEq] at hlen
      obtain ⟨hr, hrest⟩ := hlen
      simp only [List.sum_cons] at h
      have hlen' : (getSlice out r start n).length = out.length := by
        simp only [getSlice, List.length_append, List.length_take, List.length_drop]
        omega
      rw [assembleLoop, ih _ _ _ hrest (by rw [hlen']; omega)]
      have h1 : (getSlice out r start n).take (start + n) = out.take start ++ r := by
        unfold getSlice
        rw [List.take_append_of_le_length (by simp; omega)]
        apply List.take_of_length_le
        simp; omega
      have h2 : (getSlice out r start n).drop (start + n + ns.sum) = out.drop (start + (n + ns.sum)) := by
        unfold getSlice
        rw [List.drop_append, List.drop_of_length_le (by simp; omega), List.nil_append, List.drop_drop]
        congr 1
        simp; omega
      rw [h1, h2]
      simp [List.append_assoc]

theorem mapM_option_flatten (f : α → Option β) (ls : List (List α)) :
    ls.flatten.mapM f = (ls.mapM (fun l : List α => l.mapM f)).map List.flatten := by
  induction ls with
  | nil => rfl
  | cons l ls ih =>
    rw [List.flatten_cons, List.mapM_append, List.mapM_cons, ih]
    cases l.mapM f <;> simp
    cases ls.mapM (fun l : List α => l.mapM f) <;> simp

theorem mapM_eq_of_all_isSome (l : List (Option β)) :
    l.mapM id = if l.all Option.isSome then some (l.filterMap id) else none := by
  induction l with
  | nil => rfl
  | cons a l ih =>
    rw [List.mapM_cons, ih]
    cases a with
    | none => simp
    | some b =>
      simp only [id_eq, List.all_cons, Option.isSome_some, Bool.true_and]
      by_cases h : l.all Option.isSome
      · simp [h]
      · simp [h]

theorem mapM_lengths (f : α → Option β) (l : List α) (r : List β) (h : l.mapM f = some r) : r.length = l.length := by
  induction l generalizing r with
  | nil => simp at h; subst h; rfl
  | cons a l ih =>
    rw [List.mapM_cons] at h
    cases ha : f a with
    | none => simp [ha] at h
    | some b =>
      cases hl : l.mapM f with
      | none => simp [ha, hl] at h
      | some r' =>
        simp [ha, hl] at h
        subst h
        simp [ih _ hl]

theorem fit_lengths (fitRow : Bool → α → Option β) (ss : List (RampData α))
    (hall : (ss.map (fitSingle fitRow)).all Option.isSome) :
    ((ss.map (fitSingle fitRow)).filterMap id).map List.length = ss.map (fun s => s.rows.length) := by
  induction ss with
  | nil => rfl
  | cons s ss ih =>
    simp only [List.map_cons, List.all_cons, Bool.and_eq_true] at hall
    obtain ⟨h1, h2⟩ := hall
    obtain ⟨r, hr⟩ := Option.isSome_iff_exists.mp h1
    simp only [List.map_cons, hr, List.filterMap_cons, id_eq]
    congr 1
    · exact mapM_lengths _ _ _ hr
    · exact ih h2

theorem jump_ranges_prefix (nrows n : Nat) (k : Nat) (hk : k < n) :
    k * (nrows / n) ≤ nrows := by
  calc k * (nrows / n) ≤ n * (nrows / n) := Nat.mul_le_mul_right _ hk.le
    _ ≤ nrows := Nat.mul_div_le nrows n

end Verif.Slicing
