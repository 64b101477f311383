import Verif.Lemmas.Strides
/-!
# Addressing: C01, C02, C07, C08
-/

namespace Xt
open Spec

/-! ## C01 Contiguous addressing is a bijection -/

/-- Row-major: element access reads the buffer at the last-axis-fastest rank, both through
`operator()` and through `element`. -/
theorem C01_row_major_position {L l : Layout} (hL : L = .row_major ∨ l = .row_major)
    (sh idx : List Nat) (h : InBounds sh idx) :
    dataOffset (computeStrides L l sh).1 false (toInts idx) = (rowRank sh idx : Int) ∧
    elementOffset (computeStrides L l sh).1 (toInts idx) = (rowRank sh idx : Int) := by
  rw [elementOffset_eq_dataOffset, dataOffset_eq _ _ (by simp [h.length_eq])]
  exact ⟨dot_computeStrides_row hL h, dot_computeStrides_row hL h⟩

/-- Column-major: first-axis-fastest rank. -/
theorem C01_column_major_position (sh idx : List Nat) (h : InBounds sh idx) :
    dataOffset (computeStrides .column_major .column_major sh).1 false (toInts idx)
      = (colRank sh idx : Int) ∧
    elementOffset (computeStrides .column_major .column_major sh).1 (toInts idx)
      = (colRank sh idx : Int) := by
  rw [elementOffset_eq_dataOffset, dataOffset_eq _ _ (by simp [h.length_eq])]
  exact ⟨dot_computeStrides_col (by simp) h, dot_computeStrides_col (by simp) h⟩

/-- Same for a container with dynamic static layout resized to column-major. -/
theorem C01_dynamic_column_major_position (sh idx : List Nat) (h : InBounds sh idx) :
    dataOffset (computeStrides .dynamic .column_major sh).1 false (toInts idx)
      = (colRank sh idx : Int) := by
  rw [dataOffset_eq _ _ (by simp [h.length_eq])]
  exact dot_computeStrides_col (by simp) h

/-- Positions stay inside the buffer, are pairwise distinct and exhaust the buffer; the buffer
size is the product of the extents. -/
theorem C01_bijection (L l : Layout) (sh : List Nat) :
    (computeStrides L l sh).2 = (numel sh : Int) ∧
    (∀ idx, InBounds sh idx →
      0 ≤ dataOffset (computeStrides L l sh).1 false (toInts idx) ∧
      dataOffset (computeStrides L l sh).1 false (toInts idx) < (computeStrides L l sh).2) ∧
    (∀ i j, InBounds sh i → InBounds sh j →
      dataOffset (computeStrides L l sh).1 false (toInts i) =
        dataOffset (computeStrides L l sh).1 false (toInts j) → i = j) ∧
    (∀ p : Int, 0 ≤ p → p < (computeStrides L l sh).2 →
      ∃ idx, InBounds sh idx ∧
        dataOffset (computeStrides L l sh).1 false (toInts idx) = p) := by
  obtain ⟨rank, h1, h2, h3, h4⟩ := dot_computeStrides L l sh
  have e : ∀ idx, InBounds sh idx →
      dataOffset (computeStrides L l sh).1 false (toInts idx) = (rank idx : Int) := fun idx hb => by
    rw [dataOffset_eq _ _ (by simp [hb.length_eq])]; exact h1 idx hb
  refine ⟨computeStrides_size L l sh, fun idx hb => ?_, fun i j hi hj he => ?_, fun p h0 hp => ?_⟩
  · rw [e idx hb, computeStrides_size]; have := h2 idx hb; omega
  · rw [e i hi, e j hj] at he; exact h3 i j hi hj (by omega)
  · rw [computeStrides_size] at hp
    obtain ⟨idx, hb, hr⟩ := h4 p.toNat (by omega)
    exact ⟨idx, hb, by rw [e idx hb, hr]; omega⟩

/-- Buffer order is lexicographic for row-major. -/
theorem C01_row_major_order {L l : Layout} (hL : L = .row_major ∨ l = .row_major)
    (sh i j : List Nat) (hi : InBounds sh i) (hj : InBounds sh j) :
    dataOffset (computeStrides L l sh).1 false (toInts i) <
      dataOffset (computeStrides L l sh).1 false (toInts j) ↔ lexLt i j := by
  rw [(C01_row_major_position hL sh i hi).1, (C01_row_major_position hL sh j hj).1,
    ← rowRank_lt_iff_lexLt hi hj]
  omega

/-- Buffer order is colexicographic for column-major. -/
theorem C01_column_major_order (sh i j : List Nat) (hi : InBounds sh i) (hj : InBounds sh j) :
    dataOffset (computeStrides .column_major .column_major sh).1 false (toInts i) <
      dataOffset (computeStrides .column_major .column_major sh).1 false (toInts j) ↔
      colexLt i j := by
  rw [(C01_column_major_position sh i hi).1, (C01_column_major_position sh j hj).1,
    ← colRank_lt_iff_colexLt hi hj]
  omega

/-- Shape (3,1,4): in-bounds index (2,0,3) sits at row-major position 11, column-major 11; (1,0,2)
at 6 and 7. -/
example : InBounds [3, 1, 4] [1, 0, 2] ∧
    dataOffset (computeStrides .row_major .row_major [3, 1, 4]).1 false (toInts [1, 0, 2]) = 6 ∧
    dataOffset (computeStrides .column_major .column_major [3, 1, 4]).1 false (toInts [1, 0, 2]) = 7 := by
  decide

/-! ## C02 Strides and size -/

/-- The returned size is the product of the extents, and agrees with `compute_size`. -/
theorem C02_size (L l : Layout) (sh : List Nat) :
    (computeStrides L l sh).2 = (numel sh : Int) ∧ computeSize sh = numel sh :=
  ⟨computeStrides_size L l sh, computeSize_eq sh⟩

/-- Row-major stride of every axis: zero when the extent is 1, else the number of elements of the
axes after it. -/
theorem C02_row_stride {L l : Layout} (hL : L = .row_major ∨ l = .row_major) (sh : List Nat)
    (k s : Nat) (hk : sh[k]? = some s) :
    (computeStrides L l sh).1[k]? = some (if s = 1 then 0 else (numel (sh.drop (k + 1)) : Int)) := by
  obtain ⟨h, rfl⟩ := List.getElem?_eq_some_iff.1 hk
  simp only [computeStrides, if_pos hL]
  rw [rowStrides_get sh k h]
  simp [adaptStride, List.getD_eq_getElem?_getD, h]

/-- Column-major stride of every axis: zero when the extent is 1, else the number of elements of
the axes before it. -/
theorem C02_column_stride {L l : Layout} (hL : ¬ (L = .row_major ∨ l = .row_major)) (sh : List Nat)
    (k s : Nat) (hk : sh[k]? = some s) :
    (computeStrides L l sh).1[k]? = some (if s = 1 then 0 else (numel (sh.take k) : Int)) := by
  obtain ⟨h, rfl⟩ := List.getElem?_eq_some_iff.1 hk
  simp only [computeStrides, if_neg hL]
  rw [colStrides_get 1 sh k h]
  simp [adaptStride, List.getD_eq_getElem?_getD, h]

/-- Each backstride is stride times (extent - 1), i.e. the distance from the first to the last
position of that axis. -/
theorem C02_backstride (sh : List Nat) (strides : List Int) (k s : Nat) (st : Int)
    (hk : sh[k]? = some s) (hs : strides[k]? = some st) :
    (backstrides sh strides)[k]? = some (st * ((s : Int) - 1)) := by
  simp [backstrides, List.getElem?_zipWith, hk, hs, backstride]

/-- `strides(e)` of a contiguous container reports the ordinary contiguous stride on every axis,
unit axes included (row-major). -/
theorem C02_user_strides_row (sh : List Nat) (sz : Int) (k : Nat) (hk : k < sh.length) :
    (userStrides .row_major sh (computeStrides .row_major .row_major sh).1 sz .normal)[k]?
      = some (numel (sh.drop (k + 1)) : Int) ∧
    (userStrides .row_major sh (computeStrides .row_major .row_major sh).1 sz .bytes)[k]?
      = some ((numel (sh.drop (k + 1)) : Int) * sz) ∧
    userStride .row_major sh (computeStrides .row_major .row_major sh).1 sz k .normal
      = (numel (sh.drop (k + 1)) : Int) := by
  have h1 := C02_row_stride (L := .row_major) (l := .row_major) (Or.inl rfl) sh k _
    (List.getElem?_eq_getElem hk)
  obtain ⟨_, h2⟩ := List.getElem?_eq_some_iff.1 h1
  by_cases hs : sh[k] = 1
  · simp [userStrides, userStride, h2, hs, hk, computeStrideImpl, foldl_mul_int_eq]
  · simp [userStrides, userStride, h2, hs, hk]

/-- Same for column-major. -/
theorem C02_user_strides_column (sh : List Nat) (sz : Int) (k : Nat) (hk : k < sh.length) :
    (userStrides .column_major sh (computeStrides .column_major .column_major sh).1 sz .normal)[k]?
      = some (numel (sh.take k) : Int) ∧
    (userStrides .column_major sh (computeStrides .column_major .column_major sh).1 sz .bytes)[k]?
      = some ((numel (sh.take k) : Int) * sz) ∧
    userStride .column_major sh (computeStrides .column_major .column_major sh).1 sz k .normal
      = (numel (sh.take k) : Int) := by
  have h1 := C02_column_stride (L := .column_major) (l := .column_major) (by simp) sh k _
    (List.getElem?_eq_getElem hk)
  obtain ⟨_, h2⟩ := List.getElem?_eq_some_iff.1 h1
  by_cases hs : sh[k] = 1
  · simp [userStrides, userStride, h2, hs, hk, computeStrideImpl, foldl_mul_int_eq]
  · simp [userStrides, userStride, h2, hs, hk]

example : (computeStrides .row_major .row_major [2, 1, 3]) = ([3, 0, 1], 6) ∧
    backstrides [2, 1, 3] [3, 0, 1] = [3, 0, 2] ∧
    userStrides .row_major [2, 1, 3] [3, 0, 1] 8 .bytes = [24, 24, 8] ∧
    (computeStrides .column_major .column_major [2, 1, 3]) = ([1, 0, 2], 6) := by decide

/-! ## C07 Argument-count leniency -/

/-- The index an access with `args` denotes in `n` dimensions: leading zeros when too short,
leading coordinates dropped when too long. -/
def Spec.alignIndex (n : Nat) (args : List Int) : List Int :=
  List.replicate (n - args.length) 0 ++ args.drop (args.length - n)

/-- `a(args...)` and `a.element(args)` address the aligned index; any number of arguments. -/
theorem C07_alignment (strides args : List Int) :
    dataOffset strides false args = dot strides (alignIndex strides.length args) ∧
    elementOffset strides args = dot strides (alignIndex strides.length args) := by
  rw [elementOffset_eq_dataOffset]
  have : dataOffset strides false args = dot strides (alignIndex strides.length args) := by
    rcases Nat.le_total args.length strides.length with h | h
    · rw [dataOffset_le _ _ h, alignIndex, Nat.sub_eq_zero_of_le h]; simp
    · rw [dataOffset_ge _ _ h, alignIndex, Nat.sub_eq_zero_of_le h]; simp
  exact ⟨this, this⟩

/-- Fewer arguments: same element as with explicit leading zeros. -/
theorem C07_leading_zeros (strides args : List Int) (k : Nat)
    (h : k + args.length ≤ strides.length) :
    dataOffset strides false args = dataOffset strides false (List.replicate k 0 ++ args) := by
  rw [dataOffset_le _ _ (by omega), dataOffset_le _ _ (by simpa using h)]
  rw [← List.append_assoc, List.replicate_append_replicate]
  congr 3
  simp; omega

/-- More arguments: the leading ones have no influence. -/
theorem C07_extra_dropped (strides extra args : List Int) (h : args.length = strides.length) :
    dataOffset strides false (extra ++ args) = dataOffset strides false args ∧
    elementOffset strides (extra ++ args) = elementOffset strides args := by
  rw [elementOffset_eq_dataOffset, elementOffset_eq_dataOffset, dataOffset_ge _ _ (by simp; omega),
    dataOffset_ge _ _ (by omega)]
  simp [h]

/-- With a trailing `xt::missing` after fewer indices than dimensions, the omitted trailing
coordinates are zero. -/
theorem C07_missing (strides args : List Int) (h : args.length < strides.length) :
    dataOffset strides true args
      = dataOffset strides false (args ++ List.replicate (strides.length - args.length) 0) := by
  rw [dataOffset_missing _ _ h, dataOffset_eq _ _ (by simp; omega)]

/-- Extent of the previous theorem: `missing` is itself counted as an argument, so `a(i, j, missing)`
on a 2-d container drops `i` and reads `a(j, 0)`. -/
theorem C07_missing_after_full_index_drops_first :
    dataOffset [10, 1] true [2, 3] = dataOffset [10, 1] false [3, 0] ∧
    dataOffset [10, 1] true [2, 3] ≠ dataOffset [10, 1] false [2, 3] := by decide

example : dataOffset [12, 4, 1] false [2, 3] = 11 ∧ dataOffset [12, 4, 1] true [2, 3] = 36 ∧
    dataOffset [12, 4, 1] false [7, 1, 2, 3] = 23 := by decide

/-! ## C08 unchecked access -/

theorem layoutDataOffset_dynamic {L : Layout} (h1 : L ≠ .row_major) (h2 : L ≠ .column_major)
    (sd : Option Nat) (dim : Nat) (st a : List Int) :
    layoutDataOffset L sd dim st a = dot st a := by
  induction st generalizing a dim with
  | nil => cases a <;> simp [layoutDataOffset]
  | cons s ss ih =>
    cases a with
    | nil => simp [layoutDataOffset]
    | cons x xs => cases L <;> simp_all [layoutDataOffset]

theorem layoutDataOffset_row_aux (n : Nat) : ∀ (dim : Nat) (sh idx : List Nat),
    InBounds sh idx → dim + sh.length = n →
    layoutDataOffset .row_major (some n) dim (rowStrides sh).1 (toInts idx) = (rowRank sh idx : Int) ∧
    layoutDataOffset .row_major none dim (rowStrides sh).1 (toInts idx) = (rowRank sh idx : Int) := by
  intro dim sh
  induction sh generalizing dim with
  | nil => intro idx h _; cases idx <;> simp_all [layoutDataOffset]
  | cons s ss ih =>
    intro idx h hn
    cases idx with
    | nil => simp at h
    | cons i is =>
      simp only [List.length_cons] at hn
      have ih' := ih (dim + 1) is h.2 (by omega)
      have hl := h.2.length_eq
      cases is with
      | nil =>
        have hss : ss = [] := by cases ss <;> simp_all
        subst hss
        have hd : n = dim + 1 := by simp at hn; omega
        simp only [rowStrides, toInts_cons, toInts_nil, layoutDataOffset, if_true, hd, reduceCtorEq,
          if_false, mul_adaptStride h.1]
        simp
      | cons j js =>
        simp only [rowStrides, toInts_cons, layoutDataOffset, reduceCtorEq, if_false,
          mul_adaptStride h.1] at ih' ⊢
        rw [ih'.1, ih'.2, rowStrides_size]
        simp only [rowRank_cons]
        push_cast; simp

theorem layoutDataOffset_col_aux (sd : Option Nat) (dim : Nat) (st a : List Int) (h : dim ≠ 0) :
    layoutDataOffset .column_major sd dim st a = dot st a := by
  induction st generalizing a dim with
  | nil => cases a <;> simp [layoutDataOffset]
  | cons s ss ih =>
    cases a with
    | nil => simp [layoutDataOffset]
    | cons x xs => simp [layoutDataOffset, h, ih]

/-- `unchecked(i...)` on a contiguous container of static layout `L` (static or dynamic number of
dimensions) addresses the element `operator()(i...)` addresses. -/
theorem C08_unchecked_eq_checked (L l : Layout) (sh idx : List Nat) (sd : Option Nat)
    (hsd : sd = none ∨ sd = some sh.length) (hrow : L = .row_major → l = .row_major)
    (hcol : L = .column_major → l = .column_major) (h : InBounds sh idx) :
    uncheckedDataOffset L sd (computeStrides L l sh).1 (toInts idx)
      = dataOffset (computeStrides L l sh).1 false (toInts idx) := by
  rw [dataOffset_eq _ _ (by simp [h.length_eq])]
  unfold uncheckedDataOffset
  cases L with
  | row_major =>
    rw [dot_computeStrides_row (Or.inl rfl) h]
    have := layoutDataOffset_row_aux sh.length 0 sh idx h (by simp)
    simp only [computeStrides, true_or, if_true]
    rcases hsd with rfl | rfl
    · exact this.2
    · exact this.1
  | column_major =>
    have hl := hcol rfl
    subst hl
    simp only [computeStrides, reduceCtorEq, or_self, if_false]
    cases sh with
    | nil => cases idx <;> simp_all [colStrides, layoutDataOffset]
    | cons s ss =>
      cases idx with
      | nil => simp at h
      | cons i is =>
        simp only [colStrides, toInts_cons, layoutDataOffset, if_true, dot_cons,
          mul_adaptStride h.1, Int.mul_one]
        rw [layoutDataOffset_col_aux _ _ _ _ (by omega)]
  | dynamic => exact layoutDataOffset_dynamic (by simp) (by simp) _ _ _ _
  | any => exact layoutDataOffset_dynamic (by simp) (by simp) _ _ _ _

/-- For a container with arbitrary strides (dynamic layout) no stride is skipped. -/
theorem C08_unchecked_dynamic (strides args : List Int) (sd : Option Nat)
    (h : args.length = strides.length) :
    uncheckedDataOffset .dynamic sd strides args = dataOffset strides false args := by
  rw [dataOffset_eq _ _ h]; exact layoutDataOffset_dynamic (by simp) (by simp) _ _ _ _

theorem layoutDataOffset_row_fewer (n : Nat) : ∀ (dim : Nat) (st args : List Int),
    dim + st.length = n → args.length < st.length →
    layoutDataOffset .row_major (some n) dim st args = dot st args := by
  intro dim st
  induction st generalizing dim with
  | nil => intro args _ h; simp at h
  | cons s ss ih =>
    intro args hn hlt
    cases args with
    | nil => simp [layoutDataOffset]
    | cons a as =>
      simp only [List.length_cons, Nat.add_lt_add_iff_right] at hn hlt
      have ih' := ih (dim + 1) as (by omega) hlt
      simp only [layoutDataOffset, dot_cons]
      split
      · next h0 =>
        subst h0
        rw [if_neg (by simp at hlt ⊢; omega)]; simp
      · rw [ih']

/-- Unlike `operator()`, `unchecked` with fewer arguments than axes (outside its contract) indexes
the *leading* axes: the innermost-stride shortcut is not taken and the other axes are read at 0. -/
theorem C08_unchecked_fewer_arguments (strides args : List Int)
    (h : args.length < strides.length) :
    uncheckedDataOffset .row_major (some strides.length) strides args
      = dataOffset strides false (args ++ List.replicate (strides.length - args.length) 0) := by
  rw [dataOffset_eq _ _ (by simp; omega)]
  unfold uncheckedDataOffset
  rw [layoutDataOffset_row_fewer strides.length 0 _ _ (by simp) h]
  clear h
  generalize strides.length - args.length = n
  induction strides generalizing args with
  | nil => simp
  | cons s ss ih =>
    cases args with
    | nil =>
      have : ∀ (l : List Int) m, dot l (List.replicate m 0) = 0 := by
        intro l
        induction l with
        | nil => simp
        | cons x xs ih => intro m; cases m <;> simp [List.replicate_succ, ih]
      simp [this]
    | cons a as => simp [ih as]

example : uncheckedDataOffset .row_major (some 2) (computeStrides .row_major .row_major [2, 3]).1 [1]
    = 3 := by decide

/-- Shape (2,3,1): innermost stride is 0, skipped for row-major; (1,2,0) is at position 5. -/
example : InBounds [2, 3, 1] [1, 2, 0] ∧
    uncheckedDataOffset .row_major (some 3) (computeStrides .row_major .row_major [2, 3, 1]).1
      (toInts [1, 2, 0]) = 5 := by decide

end Xt
