import Verif.Model.Machine
import Verif.Props.Addressing
/-!
# C53: machine arithmetic is exact below the address limit

Machine words of any size: signed values below `M`, unsigned values below `2 M`.  If the product of the non-zero extents
is below `M`, the functions of `core/xstrides.hpp` compute on machine words what they compute on integers, for every
layout; no signed operation on the way overflows and no unsigned result wraps.  For offsets this needs only that the
in-bounds positions are within the range, which also covers views with offsets and negative strides.
-/

namespace Xt
open Spec

theorem chk_some {M : Nat} {v : Int} (h : FitsSigned M v) : chk M v = some v := if_pos h

theorem chk_none {M : Nat} {v : Int} (h : ¬ FitsSigned M v) : chk M v = none := if_neg h

theorem toSigned_of_lt {M u : Nat} (h : u < M) : toSigned M u = u := by
  simp only [toSigned]
  rw [Nat.mod_eq_of_lt (by omega), if_pos h]

theorem wrapU_of_lt {M u : Nat} (h : u < 2 * M) : wrapU M (u : Int) = u := by
  simp only [wrapU]
  rw [Int.emod_eq_of_lt (by omega) (by omega)]
  rfl

theorem nonzeroProduct_pos (sh : List Nat) : 0 < nonzeroProduct sh := by
  induction sh with
  | nil => decide
  | cons s ss ih =>
    rw [nonzeroProduct]
    split
    · omega
    · exact Nat.mul_pos (by omega) ih

theorem numel_le_nonzeroProduct (sh : List Nat) : numel sh ≤ nonzeroProduct sh := by
  induction sh with
  | nil => decide
  | cons s ss ih =>
    rw [nonzeroProduct, numel_cons]
    split
    · next h => subst h; omega
    · exact Nat.mul_le_mul_left _ ih

theorem nonzeroProduct_append (a b : List Nat) : nonzeroProduct (a ++ b) = nonzeroProduct a * nonzeroProduct b := by
  induction a with
  | nil => simp [nonzeroProduct]
  | cons s ss ih => simp only [List.cons_append, nonzeroProduct, ih, Nat.mul_assoc]

theorem nonzeroProduct_tail_le (s : Nat) (ss : List Nat) : nonzeroProduct ss ≤ nonzeroProduct (s :: ss) := by
  rw [nonzeroProduct]
  split
  · omega
  · exact Nat.le_mul_of_pos_left _ (by omega)

theorem extent_le_nonzeroProduct (s : Nat) (ss : List Nat) : s ≤ nonzeroProduct (s :: ss) := by
  rw [nonzeroProduct]
  have := nonzeroProduct_pos ss
  split
  · omega
  · exact Nat.le_mul_of_pos_right _ this

/-! ## Sizes -/

theorem foldl_sizeU {M : Nat} : ∀ (sh : List Nat) (a : Nat), a * nonzeroProduct sh < 2 * M →
    sh.foldl (fun (a s : Nat) => wrapU M ((a : Int) * (s : Int))) a = a * numel sh
  | [], a, _ => by simp
  | s :: ss, a, h => by
    have hp := nonzeroProduct_pos ss
    have h1 : a * s * nonzeroProduct ss < 2 * M := by
      refine lt_of_le_of_lt ?_ h
      rw [nonzeroProduct, Nat.mul_assoc]
      refine Nat.mul_le_mul_left _ (Nat.mul_le_mul_right _ ?_)
      split <;> omega
    have h2 : a * s < 2 * M := lt_of_le_of_lt (Nat.le_mul_of_pos_right _ hp) h1
    have h3 : wrapU M ((a : Int) * s) = a * s := by
      have := wrapU_of_lt h2
      push_cast at this
      exact this
    rw [List.foldl_cons, h3, foldl_sizeU ss (a * s) h1, numel_cons, Nat.mul_assoc]

theorem foldl_sizeS {M : Nat} : ∀ (sh : List Nat) (a : Nat), a * nonzeroProduct sh < M →
    sh.foldl (fun (a : Option Int) (s : Nat) => a.bind fun v => chk M (v * (s : Int))) (some (a : Int)) =
      some ((a * numel sh : Nat) : Int)
  | [], a, _ => by simp
  | s :: ss, a, h => by
    have hp := nonzeroProduct_pos ss
    have h1 : a * s * nonzeroProduct ss < M := by
      refine lt_of_le_of_lt ?_ h
      rw [nonzeroProduct, Nat.mul_assoc]
      refine Nat.mul_le_mul_left _ (Nat.mul_le_mul_right _ ?_)
      split <;> omega
    have h2 : a * s < M := lt_of_le_of_lt (Nat.le_mul_of_pos_right _ hp) h1
    have h3 : chk M ((a : Int) * s) = some ((a * s : Nat) : Int) := by
      rw [chk_some]
      · push_cast; rfl
      · refine ⟨?_, ?_⟩
        · have : (0 : Int) ≤ (a : Int) * s := by positivity
          omega
        · exact_mod_cast h2
    rw [List.foldl_cons, Option.bind_some, h3, foldl_sizeS ss (a * s) h1, numel_cons, Nat.mul_assoc]

/-- C53: the number of elements, with unsigned and with signed extents. -/
theorem C53_size {M : Nat} (sh : List Nat) (h : nonzeroProduct sh < M) :
    computeSizeU M sh = numel sh ∧ computeSizeS M sh = some (numel sh : Int) := by
  constructor
  · have := foldl_sizeU (M := M) sh 1 (by omega)
    rw [Nat.one_mul] at this
    exact this
  · have := foldl_sizeS (M := M) sh 1 (by omega)
    rw [Nat.one_mul] at this
    exact this

/-! ## Strides -/

theorem backstrideS_some {M s : Nat} {st : Nat} (hs : s < M) (h1 : st < M) (h : s ≠ 0 → st * s < M) :
    backstrideS M s (adaptStride s (st : Int)) = some (backstride s (adaptStride s (st : Int))) := by
  have ht : toSigned M (wrapU M ((s : Int) - 1)) = (s : Int) - 1 := by
    rcases Nat.eq_zero_or_pos s with h0 | h0
    · subst h0
      have hw : wrapU M ((0 : Nat) - 1 : Int) = 2 * M - 1 := by
        simp only [wrapU]
        have : ((0 : Nat) - 1 : Int) % (2 * M : Int) = (2 * M : Int) - 1 := by
          rw [show ((0 : Nat) - 1 : Int) = ((2 * M : Int) - 1) + (2 * M : Int) * (-1) by push_cast; ring]
          rw [Int.add_mul_emod_self_left, Int.emod_eq_of_lt (by omega) (by omega)]
        rw [this]
        omega
      rw [hw]
      simp only [toSigned]
      rw [Nat.mod_eq_of_lt (by omega), if_neg (by omega)]
      omega
    · have : ((s : Int) - 1) = ((s - 1 : Nat) : Int) := by omega
      rw [this, wrapU_of_lt (by omega), toSigned_of_lt (by omega)]
  rw [backstrideS, ht, backstride]
  refine chk_some ?_
  simp only [adaptStride]
  split
  · refine ⟨?_, ?_⟩ <;> omega
  · rcases Nat.eq_zero_or_pos s with h0 | h0
    · subst h0
      refine ⟨?_, ?_⟩
      · push_cast
        omega
      · push_cast
        omega
    · have hm := h (by omega)
      have hx : (0 : Int) ≤ (st : Int) * ((s : Int) - 1) := mul_nonneg (by omega) (by omega)
      have hy : (st : Int) * ((s : Int) - 1) ≤ (st : Int) * s := mul_le_mul_of_nonneg_left (by omega) (by omega)
      have hz : ((st * s : Nat) : Int) < M := by exact_mod_cast hm
      push_cast at hz
      exact ⟨by omega, by omega⟩

theorem backstrides_cons (s : Nat) (ss : List Nat) (st : Int) (sts : List Int) :
    backstrides (s :: ss) (st :: sts) = backstride s st :: backstrides ss sts := rfl

theorem rowStridesS_some {M : Nat} : ∀ (sh : List Nat), nonzeroProduct sh < M →
    rowStridesS M sh = some ((rowStrides sh).1, backstrides sh (rowStrides sh).1, (rowStrides sh).2)
  | [], _ => rfl
  | s :: ss, h => by
    have h1 := nonzeroProduct_tail_le s ss
    have h2 := extent_le_nonzeroProduct s ss
    have h3 := numel_le_nonzeroProduct (s :: ss)
    have h4 := numel_le_nonzeroProduct ss
    rw [numel_cons] at h3
    rw [rowStridesS, rowStridesS_some ss (by omega), Option.bind_some]
    simp only []
    rw [rowStrides_size]
    rw [toSigned_of_lt (by omega), chk_some, Option.bind_some, backstrideS_some (by omega) (by omega), Option.map_some]
    · rw [show rowStrides (s :: ss) = (adaptStride s (rowStrides ss).2 :: (rowStrides ss).1, (rowStrides ss).2 * (s : Int))
        from rfl]
      simp only [backstrides_cons]
      rw [rowStrides_size]
    · intro _
      rw [Nat.mul_comm]
      omega
    · refine ⟨?_, ?_⟩
      · have : (0 : Int) ≤ (numel ss : Int) * s := by positivity
        omega
      · have : ((s * numel ss : Nat) : Int) < M := by exact_mod_cast lt_of_le_of_lt h3 h
        push_cast at this
        rw [mul_comm]
        exact this

theorem colStridesS_some {M : Nat} : ∀ (sh : List Nat) (ds : Nat), ds * nonzeroProduct sh < M → nonzeroProduct sh < M →
    colStridesS M (ds : Int) sh =
      some ((colStrides (ds : Int) sh).1, backstrides sh (colStrides (ds : Int) sh).1, (colStrides (ds : Int) sh).2)
  | [], ds, _, _ => rfl
  | s :: ss, ds, h, hn => by
    have h1 := nonzeroProduct_tail_le s ss
    have h2 := extent_le_nonzeroProduct s ss
    have hp := nonzeroProduct_pos ss
    have hle : ds * s * nonzeroProduct ss ≤ ds * nonzeroProduct (s :: ss) := by
      rw [nonzeroProduct, Nat.mul_assoc]
      refine Nat.mul_le_mul_left _ (Nat.mul_le_mul_right _ ?_)
      split <;> omega
    have h5 : ds * s < M := lt_of_le_of_lt (le_trans (Nat.le_mul_of_pos_right _ hp) hle) h
    have h6 : ds < M := lt_of_le_of_lt (Nat.le_mul_of_pos_right _ (nonzeroProduct_pos _)) h
    have hcast : (ds : Int) * (s : Int) = ((ds * s : Nat) : Int) := by push_cast; rfl
    rw [colStridesS, toSigned_of_lt (by omega), hcast, chk_some, Option.bind_some,
      backstrideS_some (by omega) h6 (fun _ => h5), Option.bind_some,
      colStridesS_some ss (ds * s) (by omega) (by omega), Option.map_some]
    · simp only [colStrides, backstrides_cons, hcast]
    · exact ⟨by omega, by exact_mod_cast h5⟩

/-- C53: strides, backstrides and the size returned. -/
theorem C53_strides {M : Nat} (L l : Layout) (sh : List Nat) (h : nonzeroProduct sh < M) :
    computeStridesS M L l sh =
      some ((computeStrides L l sh).1, backstrides sh (computeStrides L l sh).1, (computeStrides L l sh).2) := by
  rw [computeStridesS, computeStrides]
  by_cases hl : L = .row_major ∨ l = .row_major
  · simp only [if_pos hl]
    exact rowStridesS_some sh h
  · simp only [if_neg hl]
    exact colStridesS_some sh 1 (by omega) h

-- Two elements short of the limit of 64-bit words, with an axis of extent zero and one of extent one.
example : nonzeroProduct [2 ^ 31, 0, 1, 2 ^ 32 - 1] < 2 ^ 63 := by decide

-- At the limit the size itself is not a signed value.
example : computeStridesS (2 ^ 63) .row_major .row_major [2 ^ 31, 2 ^ 32] = none := by decide +kernel

/-- C53: the zero extents do not help: an empty column-major shape whose non-zero extents exceed the range overflows on
    the way to the zero, and so does the size. -/
theorem C53_empty_shape_overflows :
    numel [2 ^ 32, 2 ^ 32, 0] = 0 ∧
      computeStridesS (2 ^ 63) .column_major .column_major [2 ^ 32, 2 ^ 32, 0] = none ∧
      computeSizeS (2 ^ 63) [2 ^ 32, 2 ^ 32, 0] = none := by decide +kernel

theorem foldl_strideImplS {M : Nat} : ∀ (sh : List Nat) (a : Nat), a * nonzeroProduct sh < M → nonzeroProduct sh < M →
    sh.foldl (fun (a : Option Int) (s : Nat) => a.bind fun v => chk M (v * toSigned M s)) (some (a : Int)) =
      some (sh.foldl (fun (a : Int) (s : Nat) => a * (s : Int)) (a : Int))
  | [], a, _, _ => rfl
  | s :: ss, a, h, hn => by
    have hp := nonzeroProduct_pos ss
    have h1 := nonzeroProduct_tail_le s ss
    have h2 := extent_le_nonzeroProduct s ss
    have hle : a * s * nonzeroProduct ss ≤ a * nonzeroProduct (s :: ss) := by
      rw [nonzeroProduct, Nat.mul_assoc]
      refine Nat.mul_le_mul_left _ (Nat.mul_le_mul_right _ ?_)
      split <;> omega
    have h5 : a * s < M := lt_of_le_of_lt (le_trans (Nat.le_mul_of_pos_right _ hp) hle) h
    have hcast : (a : Int) * (s : Int) = ((a * s : Nat) : Int) := by push_cast; rfl
    rw [List.foldl_cons, List.foldl_cons, Option.bind_some, toSigned_of_lt (by omega), hcast, chk_some,
      foldl_strideImplS ss (a * s) (by omega) (by omega)]
    exact ⟨by omega, by exact_mod_cast h5⟩

/-- C53: the strides shown to the user for unit axes. -/
theorem C53_user_stride {M : Nat} (l : Layout) (sh : List Nat) (axis : Nat) (dflt : Int) (h : nonzeroProduct sh < M) :
    computeStrideImplS M l sh axis dflt = some (computeStrideImpl l sh axis dflt) := by
  have hd : nonzeroProduct (sh.drop (axis + 1)) ≤ nonzeroProduct sh := by
    conv => rhs; rw [← List.take_append_drop (axis + 1) sh, nonzeroProduct_append]
    exact Nat.le_mul_of_pos_left _ (nonzeroProduct_pos _)
  have ht : nonzeroProduct (sh.take axis) ≤ nonzeroProduct sh := by
    conv => rhs; rw [← List.take_append_drop axis sh, nonzeroProduct_append]
    exact Nat.le_mul_of_pos_right _ (nonzeroProduct_pos _)
  simp only [computeStrideImplS, computeStrideImpl]
  split
  · exact foldl_strideImplS _ 1 (by omega) (by omega)
  · split
    · exact foldl_strideImplS _ 1 (by omega) (by omega)
    · rfl

/-! ## Offsets -/

theorem inBounds_zeros_of {sh idx : List Nat} (h : InBounds sh idx) :
    InBounds sh (List.replicate sh.length 0) := by
  induction sh generalizing idx with
  | nil => trivial
  | cons s ss ih =>
    cases idx with
    | nil => exact absurd h (by simp)
    | cons i is => exact ⟨lt_of_le_of_lt (Nat.zero_le i) h.1, ih h.2⟩

theorem dot_toInts_zeros (st : List Int) (n : Nat) : dot st (toInts (List.replicate n 0)) = 0 := by
  have : toInts (List.replicate n 0) = List.replicate n (0 : Int) := by simp [toInts]
  rw [this, dot_replicate_zero]

/-- C53: `operator()`: every product and every partial sum fits if every position in bounds does. -/
theorem C53_raw_offset {M : Nat} : ∀ (sh : List Nat) (st : List Int) (idx : List Nat), InBounds sh idx →
    st.length = sh.length → (∀ j, InBounds sh j → FitsSigned M (dot st (toInts j))) →
    rawDataOffsetS M st (toInts idx) = some (dot st (toInts idx))
  | [], st, [], _, _, _ => by
    cases st <;> rfl
  | s :: ss, [], i :: is, _, hl, _ => by simp at hl
  | s :: ss, st :: sts, i :: is, h, hl, hf => by
    have hz := inBounds_zeros_of h.2
    have h1 := hf (i :: List.replicate ss.length 0) ⟨h.1, hz⟩
    rw [toInts_cons, dot_cons, dot_toInts_zeros, add_zero] at h1
    have h2 := hf (i :: is) h
    have ih := C53_raw_offset ss sts is h.2 (by simpa using hl) (by
      intro j hj
      have := hf (0 :: j) ⟨lt_of_le_of_lt (Nat.zero_le i) h.1, hj⟩
      rw [toInts_cons, dot_cons, Nat.cast_zero, zero_mul, zero_add] at this
      exact this)
    rw [toInts_cons, rawDataOffsetS, chk_some h1, Option.bind_some, ih, Option.bind_some]
    rw [toInts_cons, dot_cons] at h2
    rw [chk_some h2, dot_cons]

/-- The left-to-right sum, from any partial sum. -/
theorem innerProductS_some {M : Nat} : ∀ (sh : List Nat) (st : List Int) (idx : List Nat) (acc : Int), InBounds sh idx →
    st.length = sh.length → (∀ j, InBounds sh j → FitsSigned M (dot st (toInts j))) →
    (∀ j, InBounds sh j → FitsSigned M (acc + dot st (toInts j))) →
    innerProductS M (toInts idx) st acc = some (acc + dot st (toInts idx))
  | [], st, [], acc, _, _, _, _ => by
    cases st <;> simp [innerProductS]
  | s :: ss, [], i :: is, _, _, hl, _, _ => by simp at hl
  | s :: ss, st :: sts, i :: is, acc, h, hl, hf, ha => by
    have hz := inBounds_zeros_of h.2
    have h1 := hf (i :: List.replicate ss.length 0) ⟨h.1, hz⟩
    rw [toInts_cons, dot_cons, dot_toInts_zeros, add_zero] at h1
    have h2 := ha (i :: List.replicate ss.length 0) ⟨h.1, hz⟩
    rw [toInts_cons, dot_cons, dot_toInts_zeros, add_zero] at h2
    have ih := innerProductS_some ss sts is (acc + (i : Int) * st) h.2 (by simpa using hl) (by
      intro j hj
      have := hf (0 :: j) ⟨lt_of_le_of_lt (Nat.zero_le i) h.1, hj⟩
      rw [toInts_cons, dot_cons, Nat.cast_zero, zero_mul, zero_add] at this
      exact this) (by
      intro j hj
      have := ha (i :: j) ⟨h.1, hj⟩
      rw [toInts_cons, dot_cons] at this
      rw [add_assoc]
      exact this)
    rw [toInts_cons, innerProductS, chk_some h1, Option.bind_some, chk_some h2, Option.bind_some, ih, dot_cons, add_assoc]

/-- C53: `element` with signed indices. -/
theorem C53_element_offset {M : Nat} (sh : List Nat) (st : List Int) (idx : List Nat) (h : InBounds sh idx)
    (hl : st.length = sh.length) (hf : ∀ j, InBounds sh j → FitsSigned M (dot st (toInts j))) :
    innerProductS M (toInts idx) st 0 = some (elementOffset st (toInts idx)) := by
  have := innerProductS_some sh st idx 0 h hl hf (by simpa using hf)
  rw [this, elementOffset_eq st _ (by rw [toInts_length, h.length_eq, hl]), zero_add]

theorem wrapU_cast {M : Nat} (hM : 0 < M) (v : Int) : ((wrapU M v : Nat) : Int) = v % (2 * M : Int) := by
  rw [wrapU, Int.toNat_of_nonneg (Int.emod_nonneg _ (by omega))]

theorem toSigned_wrapU {M : Nat} (v : Int) (h : FitsSigned M v) : toSigned M (wrapU M v) = v := by
  obtain ⟨h1, h2⟩ := h
  have hM : 0 < M := by omega
  have hc := wrapU_cast hM v
  have hlt : wrapU M v < 2 * M := by
    have := Int.emod_lt_of_pos v (show (0 : Int) < 2 * M by omega)
    omega
  simp only [toSigned]
  rw [Nat.mod_eq_of_lt hlt]
  rcases lt_or_ge v 0 with hv | hv
  · have : v % (2 * M : Int) = v + 2 * M := by
      rw [show v = (v + 2 * M) + (2 * M : Int) * (-1) by ring, Int.add_mul_emod_self_left]
      rw [Int.emod_eq_of_lt (by omega) (by omega)]
      ring
    rw [if_neg (by omega)]
    omega
  · have : v % (2 * M : Int) = v := Int.emod_eq_of_lt hv (by omega)
    rw [if_pos (by omega)]
    omega

/-- C53: `element` with indices of `std::size_t`: the unsigned products and sums may wrap, as for negative strides, but
    every partial sum read back as signed is the exact one. -/
theorem C53_element_offset_unsigned {M : Nat} (hM : 0 < M) : ∀ (sh : List Nat) (st : List Int) (idx : List Nat) (acc : Int),
    InBounds sh idx → st.length = sh.length → (∀ j, InBounds sh j → FitsSigned M (acc + dot st (toInts j))) →
    innerProductU M idx st acc = acc + dot st (toInts idx)
  | [], st, [], acc, _, _, _ => by
    cases st <;> simp [innerProductU]
  | s :: ss, [], i :: is, _, _, hl, _ => by simp at hl
  | s :: ss, st :: sts, i :: is, acc, h, hl, ha => by
    have hz := inBounds_zeros_of h.2
    have h2 := ha (i :: List.replicate ss.length 0) ⟨h.1, hz⟩
    rw [toInts_cons, dot_cons, dot_toInts_zeros, add_zero] at h2
    have hstep : toSigned M (wrapU M ((wrapU M acc : Int) + (wrapU M ((i : Int) * (wrapU M st : Int)) : Int))) =
        acc + (i : Int) * st := by
      rw [← toSigned_wrapU (M := M) (acc + (i : Int) * st) h2]
      congr 1
      rw [wrapU, wrapU_cast hM, wrapU_cast hM, wrapU_cast hM, wrapU]
      congr 1
      rw [Int.add_emod_emod, Int.emod_add_emod, Int.add_emod, Int.mul_emod, Int.emod_emod, ← Int.mul_emod,
        ← Int.add_emod]
    rw [innerProductU, hstep, toInts_cons, dot_cons, ← add_assoc]
    refine C53_element_offset_unsigned hM ss sts is (acc + (i : Int) * st) h.2 (by simpa using hl) ?_
    intro j hj
    have := ha (i :: j) ⟨h.1, hj⟩
    rw [toInts_cons, dot_cons] at this
    rw [add_assoc]
    exact this

/-- C53: `unchecked`, for any layout and static or dynamic dimension. -/
theorem C53_unchecked_offset {M : Nat} (L : Layout) (sd : Option Nat) : ∀ (sh : List Nat) (dim : Nat) (st : List Int)
    (idx : List Nat), InBounds sh idx → st.length = sh.length →
    (∀ j, InBounds sh j → FitsSigned M (layoutDataOffset L sd dim st (toInts j))) →
    layoutDataOffsetS M L sd dim st (toInts idx) = some (layoutDataOffset L sd dim st (toInts idx))
  | [], dim, st, [], _, _, _ => by
    cases st <;> rfl
  | s :: ss, dim, [], i :: is, _, hl, _ => by simp at hl
  | s :: ss, dim, st :: sts, i :: is, h, hl, hf => by
    have h0 : 0 < s := lt_of_le_of_lt (Nat.zero_le i) h.1
    have hlz : ∀ (n d : Nat) (t : List Int), layoutDataOffset L sd d t (toInts (List.replicate n 0)) = 0 := by
      intro n
      induction n with
      | zero => intro d t; cases t <;> rfl
      | succ n ih =>
        intro d t
        cases t with
        | nil => rfl
        | cons x xs =>
          rw [List.replicate_succ, toInts_cons]
          simp only [layoutDataOffset, ih, Nat.cast_zero, zero_mul]
          cases L <;> simp
    have hlen : sts.length = ss.length := by simpa using hl
    have hz := inBounds_zeros_of h.2
    have h1 := hf (i :: List.replicate ss.length 0) ⟨h.1, hz⟩
    have h2 := hf (i :: is) h
    have ih := C53_unchecked_offset (M := M) L sd ss (dim + 1) sts is h.2 hlen
    rw [toInts_cons] at h1 h2 ⊢
    cases L with
    | row_major =>
      simp only [layoutDataOffset, layoutDataOffsetS] at h1 h2 ih ⊢
      cases ss with
      | nil =>
        cases is with
        | cons j js => exact absurd h.2 (by simp)
        | nil =>
          simp only [toInts_nil, if_true] at h2 ⊢
          split
          · rfl
          · next hsd =>
            rw [if_neg hsd] at h2
            exact chk_some h2
      | cons s' ss' =>
        cases is with
        | nil => exact absurd h.2 (by simp)
        | cons j js =>
          have hne : toInts (j :: js) ≠ [] := by simp
          have hne' : toInts (List.replicate (s' :: ss').length 0) ≠ [] := by simp [List.replicate_succ]
          rw [if_neg hne', hlz, add_zero] at h1
          rw [if_neg hne] at h2 ⊢
          rw [if_neg hne]
          rw [chk_some h1, Option.bind_some, ih, Option.bind_some, chk_some h2]
          intro k hk
          have := hf (0 :: k) ⟨h0, hk⟩
          cases k with
          | nil => exact absurd hk (by simp)
          | cons k ks =>
            have hnk : toInts (k :: ks) ≠ [] := by simp
            rw [toInts_cons] at this
            simp only [layoutDataOffset, if_neg hnk, Nat.cast_zero, zero_mul, zero_add] at this
            exact this
    | column_major =>
      simp only [layoutDataOffset, layoutDataOffsetS] at h1 h2 ih ⊢
      rw [hlz, add_zero] at h1
      have hp : (if dim = 0 then some (i : Int) else chk M ((i : Int) * st)) =
          some (if dim = 0 then (i : Int) else (i : Int) * st) := by
        split
        · rfl
        · next hd =>
          rw [if_neg hd] at h1
          exact chk_some h1
      rw [hp, Option.bind_some, ih, Option.bind_some, chk_some h2]
      intro k hk
      have := hf (0 :: k) ⟨h0, hk⟩
      rw [toInts_cons] at this
      simp only [layoutDataOffset, Nat.cast_zero, zero_mul, ite_self, zero_add] at this
      exact this
    | dynamic =>
      simp only [layoutDataOffset, layoutDataOffsetS] at h1 h2 ih ⊢
      rw [hlz, add_zero] at h1
      rw [chk_some h1, Option.bind_some, ih, Option.bind_some, chk_some h2]
      intro k hk
      have := hf (0 :: k) ⟨h0, hk⟩
      rw [toInts_cons] at this
      simp only [layoutDataOffset, Nat.cast_zero, zero_mul, zero_add] at this
      exact this
    | any =>
      simp only [layoutDataOffset, layoutDataOffsetS] at h1 h2 ih ⊢
      rw [hlz, add_zero] at h1
      rw [chk_some h1, Option.bind_some, ih, Option.bind_some, chk_some h2]
      intro k hk
      have := hf (0 :: k) ⟨h0, hk⟩
      rw [toInts_cons] at this
      simp only [layoutDataOffset, Nat.cast_zero, zero_mul, zero_add] at this
      exact this

/-- Positions of a contiguous container fit. -/
theorem contiguous_fits {M : Nat} (L l : Layout) (sh : List Nat) (h : nonzeroProduct sh < M) (j : List Nat)
    (hj : InBounds sh j) : FitsSigned M (dot (computeStrides L l sh).1 (toInts j)) := by
  have hn := numel_le_nonzeroProduct sh
  by_cases hl : L = .row_major ∨ l = .row_major
  · rw [dot_computeStrides_row hl hj]
    have := rowRank_lt hj
    exact ⟨by omega, by omega⟩
  · rw [dot_computeStrides_col hl hj]
    have := colRank_lt hj
    exact ⟨by omega, by omega⟩

/-- C53: every access function of a contiguous container computes the exact position of every index in bounds. -/
theorem C53_contiguous {M : Nat} (L l : Layout) (sh idx : List Nat) (h : nonzeroProduct sh < M) (hi : InBounds sh idx) :
    ∃ p, p < numel sh ∧ dataOffset (computeStrides L l sh).1 false (toInts idx) = (p : Int) ∧
      rawDataOffsetS M (computeStrides L l sh).1 (toInts idx) = some (p : Int) ∧
      innerProductS M (toInts idx) (computeStrides L l sh).1 0 = some (p : Int) ∧
      innerProductU M idx (computeStrides L l sh).1 0 = (p : Int) ∧
      ∀ sd, (sd = none ∨ sd = some sh.length) → (L = .row_major → l = .row_major) →
        (L = .column_major → l = .column_major) →
        layoutDataOffsetS M L sd 0 (computeStrides L l sh).1 (toInts idx) = some (p : Int) := by
  have hn := numel_le_nonzeroProduct sh
  have hM : 0 < M := by omega
  have hlen : (computeStrides L l sh).1.length = sh.length := computeStrides_length L l sh
  have hf := contiguous_fits L l sh h
  obtain ⟨p, hp, hd⟩ : ∃ p, p < numel sh ∧ dot (computeStrides L l sh).1 (toInts idx) = (p : Int) := by
    by_cases hl : L = .row_major ∨ l = .row_major
    · exact ⟨_, rowRank_lt hi, dot_computeStrides_row hl hi⟩
    · exact ⟨_, colRank_lt hi, dot_computeStrides_col hl hi⟩
  have hdo : ∀ j, InBounds sh j →
      dataOffset (computeStrides L l sh).1 false (toInts j) = dot (computeStrides L l sh).1 (toInts j) :=
    fun j hj => dataOffset_eq _ _ (by rw [toInts_length, hj.length_eq, hlen])
  refine ⟨p, hp, ?_, ?_, ?_, ?_, ?_⟩
  · rw [hdo idx hi, hd]
  · rw [C53_raw_offset sh _ idx hi hlen hf, hd]
  · have := innerProductS_some sh (computeStrides L l sh).1 idx 0 hi hlen hf (by simpa using hf)
    rw [this, zero_add, hd]
  · have := C53_element_offset_unsigned hM sh (computeStrides L l sh).1 idx 0 hi hlen (by simpa using hf)
    rw [this, zero_add, hd]
  · intro sd hsd h1 h2
    have hu : ∀ j, InBounds sh j → layoutDataOffset L sd 0 (computeStrides L l sh).1 (toInts j) =
        dot (computeStrides L l sh).1 (toInts j) := fun j hj => by
      rw [← hdo j hj]
      exact C08_unchecked_eq_checked L l sh j sd hsd h1 h2 hj
    rw [C53_unchecked_offset L sd sh 0 _ idx hi hlen (fun j hj => by rw [hu j hj]; exact hf j hj), hu idx hi, hd]

-- The last element of a container of as many elements as 64-bit words allow.
example : InBounds [153092023, 60247241209] [153092022, 60247241208] ∧ nonzeroProduct [153092023, 60247241209] < 2 ^ 63 ∧
    rawDataOffsetS (2 ^ 63) (computeStrides .row_major .row_major [153092023, 60247241209]).1
      (toInts [153092022, 60247241208]) = some (2 ^ 63 - 2) := by decide +kernel

/-- C53: a view with an offset into a buffer of at most `M` elements, whose positions in bounds are all in the buffer:
    strides may be negative, and every access function finds the exact position relative to the offset. -/
theorem C53_view {M n : Nat} (hn : n ≤ M) (off : Nat) (sh : List Nat) (st : List Int) (hl : st.length = sh.length)
    (hb : ∀ j, InBounds sh j → 0 ≤ (off : Int) + dot st (toInts j) ∧ (off : Int) + dot st (toInts j) < n)
    (idx : List Nat) (hi : InBounds sh idx) :
    rawDataOffsetS M st (toInts idx) = some (dot st (toInts idx)) ∧
      innerProductS M (toInts idx) st 0 = some (dot st (toInts idx)) ∧
      innerProductU M idx st 0 = dot st (toInts idx) ∧
      chk M ((off : Int) + dot st (toInts idx)) = some ((off : Int) + dot st (toInts idx)) := by
  have h0 := hb _ (inBounds_zeros_of hi)
  rw [dot_toInts_zeros, add_zero] at h0
  have hf : ∀ j, InBounds sh j → FitsSigned M (dot st (toInts j)) := by
    intro j hj
    have := hb j hj
    exact ⟨by omega, by omega⟩
  refine ⟨C53_raw_offset sh st idx hi hl hf, ?_, ?_, ?_⟩
  · rw [innerProductS_some sh st idx 0 hi hl hf (by simpa using hf), zero_add]
  · rw [C53_element_offset_unsigned (by omega) sh st idx 0 hi hl (by simpa using hf), zero_add]
  · have := hb idx hi
    exact chk_some ⟨by omega, by omega⟩

-- A reversed axis, on words of eight bits: the unsigned product wraps, the result does not.
example : innerProductU 128 [3, 2] [-20, 5] 0 = -50 ∧ wrapU 128 (-20) = 236 := by decide

theorem unravelStepS_some {M : Nat} {idx str : Int} (h0 : 0 ≤ idx) (h1 : idx < M) :
    unravelStepS M idx str = some (unravelStep idx str) ∧ 0 ≤ (unravelStep idx str).2 ∧ (unravelStep idx str).2 < M := by
  unfold unravelStepS unravelStep
  by_cases hs : str = 0
  · simp [hs, h0, h1]
  · simp only [ne_eq, hs, not_false_eq_true, if_true]
    have hq : (idx.tdiv str).natAbs ≤ idx.natAbs := by
      rw [Int.natAbs_tdiv]
      exact Nat.div_le_self _ _
    have hr : (idx.tmod str).natAbs ≤ idx.natAbs := by
      rw [Int.natAbs_tmod]
      exact Nat.mod_le _ _
    have hr0 : 0 ≤ idx.tmod str := Int.tmod_nonneg _ h0
    refine ⟨?_, hr0, by omega⟩
    rw [chk_some ⟨by omega, by omega⟩]
    rfl

/-- C53: turning a position into an index divides only, and stays within the range. -/
theorem C53_unravel {M : Nat} : ∀ (st : List Int) (idx : Int), 0 ≤ idx → idx < M →
    unravelRowS M idx st = some (unravelRow idx st) ∧
      ∃ r, unravelColS M idx st = some r ∧ r = unravelColAux idx st ∧ 0 ≤ r.2 ∧ r.2 < M
  | [], idx, h0, h1 => ⟨rfl, _, rfl, rfl, h0, h1⟩
  | s :: ss, idx, h0, h1 => by
    obtain ⟨ha, hb, hc⟩ := unravelStepS_some (str := s) h0 h1
    obtain ⟨hr, -⟩ := C53_unravel ss (unravelStep idx s).2 hb hc
    obtain ⟨-, r, hx, hy, hz, hw⟩ := C53_unravel ss idx h0 h1
    obtain ⟨hd, he, hf⟩ := unravelStepS_some (str := s) hz hw
    refine ⟨?_, ?_⟩
    · rw [unravelRowS, ha, Option.bind_some, hr, Option.map_some, unravelRow]
    · refine ⟨((unravelStep r.2 s).1 :: r.1, (unravelStep r.2 s).2), ?_, ?_, he, hf⟩
      · rw [unravelColS, hx, Option.bind_some, hd, Option.map_some]
      · rw [unravelColAux, ← hy]

example : unravelRowS (2 ^ 63) (2 ^ 63 - 1) [2 ^ 40, 1] = some [2 ^ 23 - 1, 2 ^ 40 - 1] := by decide +kernel

end Xt
