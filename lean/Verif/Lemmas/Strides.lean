import Verif.Lemmas.Index
import Verif.Model.Strides
/-!
# Lemmas on the stride model
-/

namespace Xt
open Spec

theorem foldl_mul_eq (l : List Nat) (a : Nat) : l.foldl (· * ·) a = a * numel l := by
  induction l generalizing a with
  | nil => simp
  | cons x xs ih => simp [ih, Nat.mul_assoc]

theorem foldl_mul_int_eq (l : List Nat) (a : Int) :
    l.foldl (fun (a : Int) (s : Nat) => a * (s : Int)) a = a * (numel l : Int) := by
  induction l generalizing a with
  | nil => simp
  | cons x xs ih => simp only [List.foldl_cons, ih, numel_cons, Int.natCast_mul]; ring

theorem computeSize_eq (l : List Nat) : computeSize l = numel l := by
  simp [computeSize, foldl_mul_eq]

theorem rowStrides_size (sh : List Nat) : (rowStrides sh).2 = (numel sh : Int) := by
  induction sh with
  | nil => rfl
  | cons s ss ih => simp [rowStrides, ih, Int.mul_comm]

theorem colStrides_size (ds : Int) (sh : List Nat) : (colStrides ds sh).2 = ds * (numel sh : Int) := by
  induction sh generalizing ds with
  | nil => simp [colStrides]
  | cons s ss ih => simp only [colStrides, ih, numel_cons, Int.natCast_mul]; ring

@[simp] theorem rowStrides_length (sh : List Nat) : (rowStrides sh).1.length = sh.length := by
  induction sh with
  | nil => rfl
  | cons s ss ih => simp [rowStrides, ih]

@[simp] theorem colStrides_length (ds : Int) (sh : List Nat) :
    (colStrides ds sh).1.length = sh.length := by
  induction sh generalizing ds with
  | nil => rfl
  | cons s ss ih => simp [colStrides, ih]

@[simp] theorem computeStrides_length (L l : Layout) (sh : List Nat) :
    (computeStrides L l sh).1.length = sh.length := by
  unfold computeStrides; split <;> simp

theorem computeStrides_size (L l : Layout) (sh : List Nat) :
    (computeStrides L l sh).2 = (numel sh : Int) := by
  unfold computeStrides; split
  · exact rowStrides_size sh
  · simp [colStrides_size]

/-- A coordinate below `s` times the adapted stride is the coordinate times the plain stride. -/
theorem mul_adaptStride {i s : Nat} (h : i < s) (st : Int) :
    (i : Int) * adaptStride s st = (i : Int) * st := by
  unfold adaptStride
  split
  · have : i = 0 := by omega
    subst this; simp
  · rfl

theorem dot_rowStrides {sh idx : List Nat} (h : InBounds sh idx) :
    dot (rowStrides sh).1 (toInts idx) = (rowRank sh idx : Int) := by
  induction sh generalizing idx with
  | nil => cases idx <;> simp_all [rowStrides]
  | cons s ss ih =>
    cases idx with
    | nil => simp at h
    | cons i is =>
      simp only [rowStrides, toInts_cons, dot_cons, mul_adaptStride h.1, ih h.2, rowStrides_size,
        rowRank_cons]
      push_cast; ring

theorem dot_colStrides {sh idx : List Nat} (ds : Int) (h : InBounds sh idx) :
    dot (colStrides ds sh).1 (toInts idx) = ds * (colRank sh idx : Int) := by
  induction sh generalizing idx ds with
  | nil => cases idx <;> simp_all [colStrides]
  | cons s ss ih =>
    cases idx with
    | nil => simp at h
    | cons i is =>
      simp only [colStrides, toInts_cons, dot_cons, mul_adaptStride h.1, ih _ h.2, colRank_cons]
      push_cast; ring

/-! ## Offsets as dot products -/

theorem rawDataOffset_eq_dot (st a : List Int) : rawDataOffset st a = dot st a := by
  induction st generalizing a with
  | nil => cases a <;> rfl
  | cons s ss ih =>
    cases a with
    | nil => rfl
    | cons x xs => simp [rawDataOffset, ih]

theorem innerProduct_eq (a b : List Int) (acc : Int) :
    innerProduct a b acc = acc + dot b a := by
  induction a generalizing b acc with
  | nil => cases b <;> simp [innerProduct]
  | cons x xs ih =>
    cases b with
    | nil => simp [innerProduct]
    | cons y ys => simp only [innerProduct, ih, dot_cons]; ring

theorem dot_pad_left {st a : List Int} (h : a.length ≤ st.length) :
    dot (st.drop (st.length - a.length)) a =
      dot st (List.replicate (st.length - a.length) 0 ++ a) := by
  conv_rhs => rw [← List.take_append_drop (st.length - a.length) st]
  rw [dot_append (by simp), dot_replicate_zero]
  simp

theorem dot_pad_right (st a : List Int) (n : Nat) :
    dot st (a ++ List.replicate n 0) = dot st a := by
  induction st generalizing a with
  | nil => simp
  | cons s ss ih =>
    cases a with
    | nil => simp [dot_replicate_zero]
    | cons x xs => simp [ih]

theorem dataOffset_too_many (st : List Int) (a : Int) (as : List Int)
    (h : st.length < as.length + 1) :
    dataOffset st false (a :: as) = dataOffset st false as := by
  simp only [dataOffset, Bool.false_eq_true, if_false, Nat.add_zero]
  rw [if_neg (by omega), if_pos h]

theorem dataOffset_le (st a : List Int) (h : a.length ≤ st.length) :
    dataOffset st false a = dot st (List.replicate (st.length - a.length) 0 ++ a) := by
  cases a with
  | nil => simp [dataOffset, dot_replicate_zero]
  | cons x xs =>
    simp only [dataOffset, Bool.false_eq_true, if_false, Nat.add_zero]
    simp only [List.length_cons] at h ⊢
    split
    · next e => rw [rawDataOffset_eq_dot, e]; simp
    · rw [if_neg (by omega), rawDataOffset_eq_dot]
      exact dot_pad_left (st := st) (a := x :: xs) (by simpa using h)

theorem dataOffset_ge (st a : List Int) (h : st.length ≤ a.length) :
    dataOffset st false a = dot st (a.drop (a.length - st.length)) := by
  induction a with
  | nil =>
    have : st = [] := by cases st <;> simp_all
    simp [this, dataOffset]
  | cons x xs ih =>
    rcases Nat.lt_or_ge st.length (xs.length + 1) with h' | h'
    · rw [dataOffset_too_many _ _ _ h', ih (by omega)]
      rw [List.length_cons, Nat.succ_sub (by omega), List.drop_succ_cons]
    · rw [dataOffset_le _ _ (by simpa using h')]
      have : st.length = (x :: xs).length := by simp at h ⊢; omega
      rw [← this]; simp

theorem dataOffset_eq (st a : List Int) (h : a.length = st.length) :
    dataOffset st false a = dot st a := by
  rw [dataOffset_le _ _ (by omega), h]; simp

theorem dataOffset_missing (st a : List Int) (h : a.length < st.length) :
    dataOffset st true a = dot st (a ++ List.replicate (st.length - a.length) 0) := by
  rw [dot_pad_right]
  cases a with
  | nil => simp [dataOffset]
  | cons x xs =>
    simp only [dataOffset, if_true]
    simp only [List.length_cons] at h
    split
    · rw [rawDataOffset_eq_dot]
    · rw [if_neg (by omega), rawDataOffset_eq_dot]

theorem elementOffset_le (st a : List Int) (h : a.length ≤ st.length) :
    elementOffset st a = dot st (List.replicate (st.length - a.length) 0 ++ a) := by
  simp only [elementOffset, innerProduct_eq, Nat.min_eq_left h, Nat.sub_self, List.drop_zero,
    Int.zero_add]
  exact dot_pad_left h

theorem elementOffset_ge (st a : List Int) (h : st.length ≤ a.length) :
    elementOffset st a = dot st (a.drop (a.length - st.length)) := by
  simp [elementOffset, innerProduct_eq, Nat.min_eq_right h]

theorem elementOffset_eq (st a : List Int) (h : a.length = st.length) :
    elementOffset st a = dot st a := by
  rw [elementOffset_le _ _ (by omega), h]; simp

/-- `element` and `operator()` always agree. -/
theorem elementOffset_eq_dataOffset (st a : List Int) : elementOffset st a = dataOffset st false a := by
  rcases Nat.le_total a.length st.length with h | h
  · rw [elementOffset_le _ _ h, dataOffset_le _ _ h]
  · rw [elementOffset_ge _ _ h, dataOffset_ge _ _ h]

/-- Offset of an in-bounds index with the strides the library computes, row-major. -/
theorem dot_computeStrides_row {L l : Layout} (h : L = .row_major ∨ l = .row_major)
    {sh idx : List Nat} (hb : InBounds sh idx) :
    dot (computeStrides L l sh).1 (toInts idx) = (rowRank sh idx : Int) := by
  simp only [computeStrides, if_pos h]; exact dot_rowStrides hb

theorem dot_computeStrides_col {L l : Layout} (h : ¬ (L = .row_major ∨ l = .row_major))
    {sh idx : List Nat} (hb : InBounds sh idx) :
    dot (computeStrides L l sh).1 (toInts idx) = (colRank sh idx : Int) := by
  simp only [computeStrides, if_neg h, dot_colStrides _ hb, Int.one_mul]

/-- Layout-independent form: the offset is an injective rank below the size. -/
theorem dot_computeStrides (L l : Layout) (sh : List Nat) :
    ∃ rank : List Nat → Nat,
      (∀ idx, InBounds sh idx → dot (computeStrides L l sh).1 (toInts idx) = (rank idx : Int)) ∧
      (∀ idx, InBounds sh idx → rank idx < numel sh) ∧
      (∀ i j, InBounds sh i → InBounds sh j → rank i = rank j → i = j) ∧
      (∀ p, p < numel sh → ∃ idx, InBounds sh idx ∧ rank idx = p) := by
  by_cases h : L = .row_major ∨ l = .row_major
  · exact ⟨rowRank sh, fun _ hb => dot_computeStrides_row h hb, fun _ => rowRank_lt,
      fun _ _ => rowRank_inj, fun _ => rowRank_surj⟩
  · exact ⟨colRank sh, fun _ hb => dot_computeStrides_col h hb, fun _ => colRank_lt,
      fun _ _ => colRank_inj, fun _ => colRank_surj⟩

/-! ## Individual strides -/

theorem rowStrides_get (sh : List Nat) (k : Nat) (h : k < sh.length) :
    (rowStrides sh).1[k]? = some (adaptStride (sh.getD k 0) (numel (sh.drop (k + 1)))) := by
  induction sh generalizing k with
  | nil => simp at h
  | cons s ss ih =>
    cases k with
    | zero => simp [rowStrides, rowStrides_size]
    | succ k => simpa [rowStrides] using ih k (by simpa using h)

theorem colStrides_get (ds : Int) (sh : List Nat) (k : Nat) (h : k < sh.length) :
    (colStrides ds sh).1[k]? = some (adaptStride (sh.getD k 0) (ds * numel (sh.take k))) := by
  induction sh generalizing k ds with
  | nil => simp at h
  | cons s ss ih =>
    cases k with
    | zero => simp [colStrides]
    | succ k =>
      simp only [colStrides, List.getElem?_cons_succ, List.getD_cons_succ, List.take_succ_cons,
        numel_cons]
      rw [ih _ k (by simpa using h)]
      push_cast
      rw [Int.mul_assoc]

end Xt
