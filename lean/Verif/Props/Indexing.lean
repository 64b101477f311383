import Verif.Props.Addressing
/-!
# Index computations: C03, C09, C10, C11, C13
-/

namespace Xt
open Spec

/-! ## C03 ravel/unravel -/

theorem unravelRow_rowRank {sh idx : List Nat} (h : InBounds sh idx) :
    unravelRow (rowRank sh idx : Int) (rowStrides sh).1 = toInts idx := by
  induction sh generalizing idx with
  | nil => cases idx <;> simp_all [unravelRow, rowStrides]
  | cons s ss ih =>
    cases idx with
    | nil => simp at h
    | cons i is =>
      have hr := rowRank_lt h.2
      have hi := h.1
      simp only [rowStrides, unravelRow, toInts_cons, rowStrides_size, rowRank_cons, unravelStep]
      by_cases hs : s = 1
      · have : i = 0 := by omega
        subst this
        simp [adaptStride, hs, ih h.2]
      · have hN : ((numel ss : Nat) : Int) ≠ 0 := by omega
        simp only [adaptStride, if_neg hs, if_pos hN, ne_eq]
        have e1 : (((i * numel ss + rowRank ss is : Nat)) : Int).tdiv (numel ss : Int) = (i : Int) := by
          rw [← Int.ofNat_tdiv]
          rw [Nat.mul_comm, Nat.mul_add_div (by omega), Nat.div_eq_of_lt hr]; simp
        have e2 : (((i * numel ss + rowRank ss is : Nat)) : Int).tmod (numel ss : Int)
            = (rowRank ss is : Int) := by
          rw [← Int.ofNat_tmod]
          rw [Nat.mul_comm, Nat.mul_add_mod, Nat.mod_eq_of_lt hr]
        rw [e1, e2, ih h.2]

theorem unravelColAux_colRank {sh idx : List Nat} (h : InBounds sh idx) (ds r : Nat)
    (hr : r < ds) :
    unravelColAux ((ds * colRank sh idx + r : Nat) : Int) (colStrides (ds : Int) sh).1
      = (toInts idx, (r : Int)) := by
  induction sh generalizing idx ds r with
  | nil => cases idx <;> simp_all [unravelColAux, colStrides]
  | cons s ss ih =>
    cases idx with
    | nil => simp at h
    | cons i is =>
      have hi := h.1
      have hlt : ds * i + r < ds * s := by
        have : ds * (i + 1) ≤ ds * s := Nat.mul_le_mul_left _ hi
        rw [Nat.mul_add] at this; omega
      have e : ds * colRank (s :: ss) (i :: is) + r = ds * s * colRank ss is + (ds * i + r) := by
        simp only [colRank_cons]; ring
      have := ih h.2 (ds * s) (ds * i + r) hlt
      simp only [colStrides, unravelColAux, toInts_cons, e]
      rw [show ((ds : Int) * (s : Int)) = ((ds * s : Nat) : Int) by push_cast; rfl, this]
      simp only [unravelStep]
      by_cases hs : s = 1
      · have : i = 0 := by omega
        subst this
        simp [adaptStride, hs]
      · have hN : (ds : Int) ≠ 0 := by omega
        simp only [adaptStride, if_neg hs, if_pos hN, ne_eq]
        have e1 : ((ds * i + r : Nat) : Int).tdiv (ds : Int) = (i : Int) := by
          rw [← Int.ofNat_tdiv]
          rw [Nat.mul_add_div (by omega), Nat.div_eq_of_lt hr]; simp
        have e2 : ((ds * i + r : Nat) : Int).tmod (ds : Int) = (r : Int) := by
          rw [← Int.ofNat_tmod, Nat.mul_add_mod, Nat.mod_eq_of_lt hr]
        rw [e1, e2]

/-- Rank of an index in the given layout (row-major unless column-major). -/
def Spec.rankIn : Layout → List Nat → List Nat → Nat
  | .column_major, sh, i => colRank sh i
  | _, sh, i => rowRank sh i

/-- `unravel_index` undoes `ravel_index`, and `ravel_index` is the rank in the layout's order. -/
theorem C03_unravel_ravel (l : Layout) (hl : l = .row_major ∨ l = .column_major)
    (sh idx : List Nat) (h : InBounds sh idx) :
    ravelIndex (toInts idx) sh l = (rankIn l sh idx : Int) ∧
    unravelIndex (ravelIndex (toInts idx) sh l) sh l = some (toInts idx) := by
  rcases hl with rfl | rfl
  · have e : ravelIndex (toInts idx) sh .row_major = (rowRank sh idx : Int) := by
      unfold ravelIndex
      rw [elementOffset_eq _ _ (by simp [h.length_eq])]
      exact dot_computeStrides_row (Or.inr rfl) h
    refine ⟨e, ?_⟩
    rw [e]
    simp [unravelIndex, unravelFromStrides, computeStrides, unravelRow_rowRank h]
  · have e : ravelIndex (toInts idx) sh .column_major = (colRank sh idx : Int) := by
      unfold ravelIndex
      rw [elementOffset_eq _ _ (by simp [h.length_eq])]
      exact dot_computeStrides_col (by simp) h
    refine ⟨e, ?_⟩
    rw [e]
    have := unravelColAux_colRank h 1 0 (by omega)
    simp only [Nat.one_mul, Nat.add_zero, Nat.cast_one] at this
    simp [unravelIndex, unravelFromStrides, computeStrides, this]

/-- `unravel_index` of every position below the size is an in-bounds index, and `ravel_index`
sends it back to the position. -/
theorem C03_ravel_unravel (l : Layout) (hl : l = .row_major ∨ l = .column_major)
    (sh : List Nat) (p : Nat) (h : p < numel sh) :
    ∃ idx, InBounds sh idx ∧ unravelIndex (p : Int) sh l = some (toInts idx) ∧
      ravelIndex (toInts idx) sh l = (p : Int) := by
  have : ∃ idx, InBounds sh idx ∧ rankIn l sh idx = p := by
    rcases hl with rfl | rfl
    · exact rowRank_surj h
    · exact colRank_surj h
  obtain ⟨idx, hb, hr⟩ := this
  have := C03_unravel_ravel l hl sh idx hb
  rw [this.1, hr] at this
  exact ⟨idx, hb, this.2, by rw [(C03_unravel_ravel l hl sh idx hb).1, hr]⟩

/-- A layout that is neither row- nor column-major is rejected. -/
theorem C03_dynamic_rejected (l : Layout) (hl : l ≠ .row_major) (hl' : l ≠ .column_major)
    (p : Int) (sh : List Nat) : unravelIndex p sh l = none := by
  cases l <;> simp_all [unravelIndex, unravelFromStrides]

/-- `unravel_indices` is `unravel_index` on every position. -/
theorem C03_unravel_indices (l : Layout) (ps : List Int) (sh : List Nat) :
    unravelIndices ps sh l = ps.mapM fun p => unravelIndex p sh l := rfl

example : (13 : Nat) < numel [3, 1, 5] ∧ unravelIndex 13 [3, 1, 5] .row_major = some [2, 0, 3] ∧
    unravelIndex 13 [3, 1, 5] .column_major = some [1, 0, 4] ∧
    ravelIndex [1, 0, 4] [3, 1, 5] .column_major = 13 := by decide

/-! ## C09 at() -/

/-- Arguments representable by some C++ integer type of at most 64 bits. -/
def Spec.Fits64 (a : Int) : Prop := -9223372036854775808 ≤ a ∧ a < 18446744073709551616

/-- An extent representable as a signed 64 bit number. -/
def Spec.ExtentFits (s : Nat) : Prop := s < 9223372036854775808

theorem toSizeT_of_nonneg {a : Int} (h0 : 0 ≤ a) (h : Fits64 a) : toSizeT a = a.toNat := by
  unfold toSizeT; rw [Int.emod_eq_of_lt h0 h.2]

theorem le_toSizeT_of_neg {a : Int} (h0 : a < 0) (h : Fits64 a) :
    9223372036854775808 ≤ toSizeT a := by
  unfold toSizeT
  have : a % 18446744073709551616 = a + 18446744073709551616 := by
    rw [← Int.add_emod_right, Int.emod_eq_of_lt] <;> have := h.1 <;> omega
  rw [this]
  have := h.1
  omega

theorem checkIndexImpl_iff {sh : List Nat} {args : List Int} (hl : args.length ≤ sh.length)
    (ha : ∀ a ∈ args, Fits64 a) (hs : ∀ s ∈ sh, ExtentFits s) :
    checkIndexImpl sh args = true ↔
      ∀ (k : Nat) s a, sh[k]? = some s → args[k]? = some a → s = 1 ∨ (0 ≤ a ∧ a < (s : Int)) := by
  induction sh generalizing args with
  | nil => cases args <;> simp_all [checkIndexImpl]
  | cons s ss ih =>
    cases args with
    | nil => simp [checkIndexImpl]
    | cons a as =>
      have ha0 := ha a (by simp)
      have hs0 : s < 9223372036854775808 := hs s (by simp)
      have ih' := ih (args := as) (by simpa using hl) (fun x hx => ha x (by simp [hx]))
        (fun x hx => hs x (by simp [hx]))
      have key : (toSizeT a ≥ s ∧ s ≠ 1) ↔ ¬ (s = 1 ∨ (0 ≤ a ∧ a < (s : Int))) := by
        rcases lt_or_ge a 0 with hn | hn
        · have := le_toSizeT_of_neg hn ha0
          constructor
          · rintro ⟨_, h2⟩; push Not; exact ⟨h2, fun h => by omega⟩
          · intro h; push Not at h; exact ⟨by omega, h.1⟩
        · rw [toSizeT_of_nonneg hn ha0]
          constructor
          · rintro ⟨h1, h2⟩; push Not; exact ⟨h2, fun _ => by omega⟩
          · intro h; push Not at h; exact ⟨by have := h.2 hn; omega, h.1⟩
      simp only [checkIndexImpl]
      constructor
      · intro h
        split at h
        · simp at h
        · next hk =>
          rw [key, not_not] at hk
          intro k s' a' h1 h2
          cases k with
          | zero => simp at h1 h2; subst h1 h2; exact hk
          | succ k => exact ih'.1 h k s' a' (by simpa using h1) (by simpa using h2)
      · intro h
        have h0 := h 0 s a (by simp) (by simp)
        rw [if_neg (by rw [key, not_not]; exact h0)]
        exact ih'.2 fun k s' a' h1 h2 => h (k + 1) s' a' (by simpa using h1) (by simpa using h2)

theorem checkAccess_full {sh : List Nat} {args : List Int} (hl : args.length = sh.length) :
    checkAccess sh false args = checkIndexImpl sh args := by
  cases args with
  | nil =>
    have : sh = [] := by cases sh <;> simp_all
    simp [checkAccess, checkDimension, checkIndex, checkIndexImpl, this]
  | cons a as =>
    simp only [List.length_cons] at hl
    simp [checkAccess, checkDimension, checkIndex, hl]

/-- A full-arity `at` throws exactly when some argument is outside `[0, extent)` of an axis whose
extent is not 1. -/
theorem C09_throws_iff (sh : List Nat) (strides args : List Int) (hl : args.length = sh.length)
    (ha : ∀ a ∈ args, Fits64 a) (hs : ∀ s ∈ sh, ExtentFits s) :
    atOffset sh strides false args = none ↔
      ∃ (k s : Nat) (a : Int), sh[k]? = some s ∧ args[k]? = some a ∧ s ≠ 1 ∧ (a < 0 ∨ (s : Int) ≤ a) := by
  unfold atOffset
  rw [checkAccess_full hl]
  have := checkIndexImpl_iff (sh := sh) (args := args) (by omega) ha hs
  constructor
  · intro h
    have h' : ¬ checkIndexImpl sh args = true := by
      intro hc; simp [hc] at h
    rw [this] at h'
    push Not at h'
    obtain ⟨k, s, a, h1, h2, h3, h4⟩ := h'
    exact ⟨k, s, a, h1, h2, h3, by by_contra hc; push Not at hc; have := h4 hc.1; omega⟩
  · rintro ⟨k, s, a, h1, h2, h3, h4⟩
    have : ¬ checkIndexImpl sh args = true := by
      rw [this]; intro h
      rcases h k s a h1 h2 with h | h <;> omega
    simp [this]

/-- In range, full arity: never throws, and reads the element `operator()` reads. -/
theorem C09_no_throw (sh idx : List Nat) (strides : List Int) (h : InBounds sh idx)
    (hs : ∀ s ∈ sh, ExtentFits s) :
    atOffset sh strides false (toInts idx) = some (dataOffset strides false (toInts idx)) := by
  have hg := inBounds_iff_get.1 h
  have hb : ∀ a ∈ toInts idx, Fits64 a := by
    intro a ha
    obtain ⟨n, hn, rfl⟩ := List.mem_map.1 ha
    obtain ⟨k, hk, rfl⟩ := List.getElem_of_mem hn
    have hk' : k < sh.length := by rw [← hg.1]; exact hk
    have h1 := hg.2 k hk'
    have h2 : sh[k] < 9223372036854775808 := hs _ (List.getElem_mem hk')
    simp only [List.getD_eq_getElem?_getD, List.getElem?_eq_getElem hk, List.getElem?_eq_getElem hk',
      Option.getD_some] at h1
    simp only [Fits64, Int.ofNat_eq_natCast]
    omega
  have : checkIndexImpl sh (toInts idx) = true := by
    rw [checkIndexImpl_iff (by simp [h.length_eq]) hb hs]
    intro k s a h1 h2
    right
    simp only [toInts, List.getElem?_map, Option.map_eq_some_iff] at h2
    obtain ⟨i, hi, rfl⟩ := h2
    obtain ⟨hk, rfl⟩ := List.getElem?_eq_some_iff.1 h1
    have := hg.2 k hk
    simp only [List.getD_eq_getElem?_getD, List.getElem?_eq_getElem hk, hi,
      Option.getD_some] at this
    simp only [Int.ofNat_eq_natCast]
    omega
  unfold atOffset
  rw [checkAccess_full (by simp [h.length_eq]), this]
  rfl

/-- Offsets that pass the index check: same offset as an in-bounds index. -/
theorem checkIndexImpl_dot {L l : Layout} {sh : List Nat} {args : List Int}
    (hl : args.length = sh.length)
    (ha : ∀ a ∈ args, Fits64 a) (hs : ∀ s ∈ sh, ExtentFits s)
    (h : checkIndexImpl sh args = true) :
    ∃ idx, InBounds sh idx ∧
      dot (computeStrides L l sh).1 args = dot (computeStrides L l sh).1 (toInts idx) := by
  rw [checkIndexImpl_iff (by omega) ha hs] at h
  have gen : ∀ (sh : List Nat) (args sts : List Int), args.length = sh.length →
      sts.length = sh.length →
      (∀ k : Nat, sh[k]? = some 1 → sts[k]? = some 0) →
      (∀ (k : Nat) s a, sh[k]? = some s → args[k]? = some a → s = 1 ∨ (0 ≤ a ∧ a < (s : Int))) →
      ∃ idx, InBounds sh idx ∧ dot sts args = dot sts (toInts idx) := by
    intro sh
    induction sh with
    | nil => intro args sts h1 h2 _ _; exact ⟨[], trivial, by
        have : args = [] := by cases args <;> simp_all
        simp [this]⟩
    | cons s ss ih =>
      intro args sts h1 h2 h3 h4
      cases args with
      | nil => simp at h1
      | cons a as =>
        cases sts with
        | nil => simp at h2
        | cons st sts =>
          obtain ⟨is, hb, hd⟩ := ih as sts (by simpa using h1) (by simpa using h2)
            (fun k hk => by simpa using h3 (k + 1) (by simpa using hk))
            (fun k s a h h' => h4 (k + 1) s a (by simpa using h) (by simpa using h'))
          rcases h4 0 s a (by simp) (by simp) with hs | hs
          · have := h3 0 (by simp [hs])
            simp at this
            exact ⟨0 :: is, ⟨by omega, hb⟩, by simp [hd, this]⟩
          · refine ⟨a.toNat :: is, ⟨by omega, hb⟩, ?_⟩
            simp only [dot_cons, toInts_cons, hd]
            rw [Int.toNat_of_nonneg hs.1]
  refine gen sh args _ hl (by simp) ?_ h
  intro k hk
  by_cases hr : L = .row_major ∨ l = .row_major
  · simpa using C02_row_stride hr sh k 1 hk
  · simpa using C02_column_stride hr sh k 1 hk

/-- Safety of a full-arity `at` on a contiguous container: it throws or addresses a position inside
the buffer, whatever the (possibly negative) arguments. -/
theorem C09_at_safe_full (L l : Layout) (sh : List Nat) (args : List Int) (p : Int)
    (hl : args.length = sh.length) (ha : ∀ a ∈ args, Fits64 a) (hs : ∀ s ∈ sh, ExtentFits s)
    (h : atOffset sh (computeStrides L l sh).1 false args = some p) :
    0 ≤ p ∧ p < (numel sh : Int) := by
  unfold atOffset at h
  rw [checkAccess_full hl] at h
  split at h
  · next hc =>
    obtain ⟨idx, hb, hd⟩ := checkIndexImpl_dot (L := L) (l := l) hl ha hs hc
    obtain ⟨rank, r1, r2, _, _⟩ := dot_computeStrides L l sh
    simp only [Option.some.injEq] at h
    rw [← h, dataOffset_eq _ _ (by simp [hl]), hd, r1 idx hb]
    have := r2 idx hb
    omega
  · simp at h

theorem checkAccess_le {sh : List Nat} {args : List Int} (hl : args.length ≤ sh.length) :
    checkAccess sh false args = checkIndexImpl (sh.drop (sh.length - args.length)) args := by
  cases args with
  | nil => simp [checkAccess, checkDimension, checkIndex, checkIndexImpl]
  | cons a as =>
    simp only [List.length_cons] at hl
    simp only [checkAccess, checkDimension, checkIndex, List.length_cons, Bool.false_eq_true, if_false,
      Nat.add_zero]
    rw [show decide (¬ sh.length < as.length + 1) = true by simp; omega]
    split
    · next e => simp [e]
    · rw [if_neg (by omega)]; simp

theorem checkIndexImpl_append_one {pre sh : List Nat} {args : List Int}
    (hp : 0 ∉ pre) :
    checkIndexImpl (pre ++ sh) (List.replicate pre.length 0 ++ args) = checkIndexImpl sh args := by
  induction pre with
  | nil => simp
  | cons s ss ih =>
    simp only [List.length_cons, List.replicate_succ, List.cons_append, checkIndexImpl]
    rw [if_neg, ih (fun h => hp (by simp [h]))]
    rintro ⟨h1, h2⟩
    have : toSizeT 0 = 0 := by decide
    rw [this] at h1
    exact hp (by simp; omega)

/-- Safety for every argument count, provided the container is not empty. (For an empty container
see `C09_at_unsafe_on_empty`.) -/
theorem C09_at_safe_partial (L l : Layout) (sh : List Nat) (args : List Int) (p : Int)
    (hne : 0 < numel sh) (ha : ∀ a ∈ args, Fits64 a) (hs : ∀ s ∈ sh, ExtentFits s)
    (h : atOffset sh (computeStrides L l sh).1 false args = some p) :
    0 ≤ p ∧ p < (numel sh : Int) := by
  by_cases hl : args.length ≤ sh.length
  · have h0 := (numel_pos_iff sh).1 hne
    let d := sh.length - args.length
    have hd : (sh.take d).length = d := by simp [d]
    have e1 : checkAccess sh false (List.replicate d 0 ++ args) = checkAccess sh false args := by
      rw [checkAccess_full (by simp [d]; omega), checkAccess_le hl]
      conv_lhs => rw [← List.take_append_drop d sh]
      have := checkIndexImpl_append_one (pre := sh.take d) (sh := sh.drop d) (args := args)
        (fun hm => h0 (List.mem_of_mem_take hm))
      rw [hd] at this
      exact this
    have e2 : dataOffset (computeStrides L l sh).1 false (List.replicate d 0 ++ args)
        = dataOffset (computeStrides L l sh).1 false args :=
      (C07_leading_zeros _ _ d (by simp [d]; omega)).symm
    refine C09_at_safe_full L l sh (List.replicate d 0 ++ args) p (by simp [d]; omega) ?_ hs ?_
    · intro a hm
      rcases List.mem_append.1 hm with hm | hm
      · rw [(List.mem_replicate.1 hm).2]; simp [Fits64]
      · exact ha a hm
    · unfold atOffset at h ⊢
      rw [e1, e2]; exact h
  · exfalso
    have : checkDimension sh args.length = false := by simp [checkDimension]; omega
    simp [atOffset, checkAccess, this] at h

/-- The claim fails for fewer arguments on an empty container: shape (0,3), `a.at(1)` does not throw
and addresses position 1 of an empty buffer. -/
theorem C09_at_unsafe_on_empty :
    atOffset [0, 3] (computeStrides .row_major .row_major [0, 3]).1 false [1] = some 1 ∧
    numel [0, 3] = 0 := by decide

example : atOffset [2, 1, 3] (computeStrides .row_major .row_major [2, 1, 3]).1 false [1, 7, 2] = some 5 ∧
    atOffset [2, 1, 3] (computeStrides .row_major .row_major [2, 1, 3]).1 false [1, 0, -1] = none ∧
    atOffset [2, 1, 3] (computeStrides .row_major .row_major [2, 1, 3]).1 false [2] = some 2 := by decide

/-- The element variant `check_element_index` (used by the assertion macros for `element`) lets
negative coordinates through and aligns short indices to the left. -/
theorem C09_check_element_index_gaps :
    checkElementIndex [3] [-1] = true ∧
    checkElementIndex [2, 5] [4] = false ∧ checkElementIndex [5, 2] [4] = true := by decide

/-! ## C10 in_bounds -/

theorem checkInBoundsImpl_le {n : Nat} {sh : List Nat} {args : List Int} (miss : Bool)
    (hn : args.length + (if miss then 1 else 0) ≤ n) (hl : args.length ≤ sh.length) :
    checkInBoundsImpl n miss sh args = true ↔
      ∀ (k : Nat) s a, sh[k]? = some s → args[k]? = some a → 0 ≤ a ∧ a < (s : Int) := by
  induction sh generalizing args with
  | nil => cases args <;> simp_all [checkInBoundsImpl]
  | cons s ss ih =>
    cases args with
    | nil => simp [checkInBoundsImpl]
    | cons a as =>
      simp only [List.length_cons] at hn hl
      have ih' := ih (args := as) (by omega) (by omega)
      simp only [checkInBoundsImpl]
      rw [if_neg (by omega)]
      simp only [Bool.and_eq_true, decide_eq_true_eq, ih']
      constructor
      · rintro ⟨h0, h⟩ k s' a' h1 h2
        cases k with
        | zero => simp at h1 h2; subst h1 h2; exact h0
        | succ k => exact h k s' a' (by simpa using h1) (by simpa using h2)
      · intro h
        exact ⟨h 0 s a (by simp) (by simp), fun k s' a' h1 h2 =>
          h (k + 1) s' a' (by simpa using h1) (by simpa using h2)⟩

theorem checkInBoundsImpl_drop {sh : List Nat} (extra args : List Int)
    (hl : sh.length ≤ args.length) :
    checkInBoundsImpl sh.length false sh (extra ++ args) = checkInBoundsImpl sh.length false sh args := by
  induction extra with
  | nil => rfl
  | cons a as ih =>
    simp only [List.cons_append, checkInBoundsImpl]
    rw [if_pos (by simp; omega)]
    exact ih

theorem forall_bounds_iff {sh : List Nat} {args : List Int} (hl : args.length = sh.length) :
    (∀ (k : Nat) s a, sh[k]? = some s → args[k]? = some a → 0 ≤ a ∧ a < (s : Int)) ↔
      ∃ idx, args = toInts idx ∧ InBounds sh idx := by
  induction sh generalizing args with
  | nil =>
    have : args = [] := by cases args <;> simp_all
    simp only [this, List.getElem?_nil, reduceCtorEq, false_implies, implies_true, true_iff]
    exact ⟨[], rfl, trivial⟩
  | cons s ss ih =>
    cases args with
    | nil => simp at hl
    | cons a as =>
      have ih' := ih (args := as) (by simpa using hl)
      constructor
      · intro h
        obtain ⟨is, e, hb⟩ := ih'.1 fun k s' a' h1 h2 =>
          h (k + 1) s' a' (by simpa using h1) (by simpa using h2)
        have h0 := h 0 s a (by simp) (by simp)
        refine ⟨a.toNat :: is, ?_, by omega, hb⟩
        rw [toInts_cons, Int.toNat_of_nonneg h0.1, e]
      · rintro ⟨idx, e, hb⟩
        cases idx with
        | nil => simp at e
        | cons i is =>
          simp only [toInts_cons, List.cons.injEq] at e
          intro k s' a' h1 h2
          cases k with
          | zero =>
            simp at h1 h2; subst h1 h2
            have := hb.1
            omega
          | succ k => exact ih'.2 ⟨is, e.2, hb.2⟩ k s' a' (by simpa using h1) (by simpa using h2)

/-- With at least as many arguments as dimensions, `in_bounds` is true exactly when the index
`operator()` applies (extra leading arguments dropped) is an in-bounds index.
Missing: fewer arguments, where the claim is false (`C10_fewer_arguments_wrong`). -/
theorem C10_in_bounds_partial (sh : List Nat) (args : List Int) (h : sh.length ≤ args.length) :
    inBoundsCall sh false args = true ↔
      ∃ idx, alignIndex sh.length args = toInts idx ∧ InBounds sh idx := by
  have hd : (args.drop (args.length - sh.length)).length = sh.length := by simp; omega
  unfold inBoundsCall
  have e := checkInBoundsImpl_drop (sh := sh) (args.take (args.length - sh.length))
    (args.drop (args.length - sh.length)) (by omega)
  rw [List.take_append_drop] at e
  rw [e, checkInBoundsImpl_le false (by simp; omega) (by omega), forall_bounds_iff hd]
  simp [alignIndex, Nat.sub_eq_zero_of_le h]

/-- With a trailing `missing` after fewer indices than dimensions the alignment is that of
element access (to the left), and `in_bounds` tests the given coordinates against their axes. -/
theorem C10_in_bounds_missing (sh : List Nat) (args : List Int) (h : args.length < sh.length) :
    inBoundsCall sh true args = true ↔
      ∀ (k : Nat) s a, sh[k]? = some s → args[k]? = some a → 0 ≤ a ∧ a < (s : Int) :=
  checkInBoundsImpl_le true (by simp; omega) (by omega)

/-- Fewer arguments: `in_bounds` aligns to the left, element access to the right.  Shape (2,5):
`in_bounds(3)` is false although `a(3)` is the valid element (0,3).  Shape (5,2), column-major:
`in_bounds(3)` is true although `a(3)` addresses position 15 of a buffer of 10. -/
theorem C10_fewer_arguments_wrong :
    (inBoundsCall [2, 5] false [3] = false ∧ InBounds [2, 5] [0, 3] ∧
      alignIndex 2 [3] = toInts [0, 3]) ∧
    (inBoundsCall [5, 2] false [3] = true ∧
      dataOffset (computeStrides .column_major .column_major [5, 2]).1 false [3] = 15 ∧
      numel [5, 2] = 10) := by decide

example : inBoundsCall [2, 5] false [9, 1, 4] = true ∧ inBoundsCall [2, 5] false [1, 5] = false ∧
    inBoundsCall [2, 5] false [-1, 4] = false := by decide

/-! ## C11 periodic -/

theorem normalizeArg_eq {n : Nat} (hn : 0 < n) (a : Int) : normalizeArg n a = a % (n : Int) := by
  unfold normalizeArg
  have hn' : (0 : Int) < n := by omega
  rcases lt_or_ge a 0 with h | h
  · have h1 : a.tmod n = -((-a) % n) := by
      have := Int.tmod_eq_emod_of_nonneg (a := -a) (b := (n : Int)) (by omega)
      rw [← this, Int.neg_tmod]; simp
    have h2 := Int.emod_nonneg (-a) (b := (n : Int)) (by omega)
    have h3 := Int.emod_lt_of_pos (-a) hn'
    rw [h1, Int.tmod_eq_emod_of_nonneg (by omega)]
    have h4 : ((n : Int) + -(-a % (n : Int))) = a + (n : Int) * (1 + (-a) / n) := by
      have := Int.emod_add_mul_ediv (-a) n
      linarith
    rw [h4, Int.add_mul_emod_self_left]
  · rw [Int.tmod_eq_emod_of_nonneg h, Int.tmod_eq_emod_of_nonneg]
    · rw [Int.add_emod_left]; exact Int.emod_emod_of_dvd a (dvd_refl _)
    · have := Int.emod_nonneg a (b := (n : Int)) (by omega)
      omega

theorem zipWith_normalize {sh : List Nat} {args : List Int} (h0 : 0 ∉ sh) :
    List.zipWith normalizeArg sh args = List.zipWith (fun (n : Nat) (a : Int) => a % (n : Int)) sh args := by
  induction sh generalizing args with
  | nil => simp
  | cons s ss ih =>
    cases args with
    | nil => simp
    | cons a as =>
      simp only [List.mem_cons, not_or] at h0
      simp only [List.zipWith_cons_cons]
      rw [normalizeArg_eq (by omega), ih h0.2]

/-- The index modulo the extents. -/
def Spec.modIndex (sh : List Nat) (args : List Int) : List Int :=
  List.zipWith (fun (n : Nat) (a : Int) => a % (n : Int)) sh args

theorem modIndex_inBounds {sh : List Nat} {args : List Int} (h0 : 0 ∉ sh)
    (hl : args.length = sh.length) : ∃ idx, InBounds sh idx ∧ modIndex sh args = toInts idx := by
  induction sh generalizing args with
  | nil => exact ⟨[], trivial, by simp [modIndex]⟩
  | cons s ss ih =>
    cases args with
    | nil => simp at hl
    | cons a as =>
      simp only [List.mem_cons, not_or] at h0
      obtain ⟨is, hb, e⟩ := ih h0.2 (by simpa using hl)
      have h1 := Int.emod_nonneg a (b := (s : Int)) (by omega)
      have h2 := Int.emod_lt_of_pos a (b := (s : Int)) (by omega)
      refine ⟨(a % (s : Int)).toNat :: is, ⟨by omega, hb⟩, ?_⟩
      rw [toInts_cons, Int.toNat_of_nonneg h1, ← e]; rfl

/-- Full arity, no zero extent: `periodic(i...)` is element access at the index modulo the extents,
which is an in-bounds index, so the access stays inside the buffer.
Missing: fewer arguments, where it is false (`C11_fewer_arguments_wrong`). -/
theorem C11_periodic_partial (L l : Layout) (sh : List Nat) (args : List Int) (h0 : 0 ∉ sh)
    (hl : args.length = sh.length) :
    ∃ idx, InBounds sh idx ∧ modIndex sh args = toInts idx ∧
      periodicOffset sh (computeStrides L l sh).1 args
        = .ok (dataOffset (computeStrides L l sh).1 false (toInts idx)) ∧
      0 ≤ dataOffset (computeStrides L l sh).1 false (toInts idx) ∧
      dataOffset (computeStrides L l sh).1 false (toInts idx) < (numel sh : Int) := by
  obtain ⟨idx, hb, e⟩ := modIndex_inBounds h0 hl
  have hbij := C01_bijection L l sh
  have hr := hbij.2.1 idx hb
  rw [hbij.1] at hr
  refine ⟨idx, hb, e, ?_, hr⟩
  unfold periodicOffset normalizePeriodic
  rw [if_neg (by omega), if_neg (fun h => h0 (List.mem_of_mem_take h)), zipWith_normalize h0]
  simp only [Res.map_ok, modIndex] at e ⊢
  rw [e]

/-- Full arity on arbitrary strides (adaptors, views): the element at the index modulo the
extents. -/
theorem C11_periodic_any_strides (sh : List Nat) (strides args : List Int) (h0 : 0 ∉ sh)
    (hl : args.length = sh.length) :
    periodicOffset sh strides args = .ok (dataOffset strides false (modIndex sh args)) := by
  unfold periodicOffset normalizePeriodic
  rw [if_neg (by omega), if_neg (fun h => h0 (List.mem_of_mem_take h)), zipWith_normalize h0]
  rfl

theorem modIndex_shift {sh : List Nat} {args ks : List Int} (hl : args.length = sh.length)
    (hk : ks.length = sh.length) :
    modIndex sh (List.zipWith (fun a b => a + b) args
      (List.zipWith (fun (n : Nat) (k : Int) => k * (n : Int)) sh ks)) = modIndex sh args := by
  induction sh generalizing args ks with
  | nil => simp [modIndex]
  | cons s ss ih =>
    cases args with
    | nil => simp at hl
    | cons a as =>
      cases ks with
      | nil => simp at hk
      | cons k ks =>
        simp only [modIndex, List.zipWith_cons_cons] at ih ⊢
        rw [ih (by simpa using hl) (by simpa using hk)]
        simp

/-- Adding multiples of the extents to the arguments does not change the element. -/
theorem C11_periodic_invariant (sh : List Nat) (strides args ks : List Int)
    (h0 : 0 ∉ sh) (hl : args.length = sh.length) (hk : ks.length = sh.length) :
    periodicOffset sh strides (List.zipWith (fun a b => a + b) args
      (List.zipWith (fun (n : Nat) (k : Int) => k * (n : Int)) sh ks))
      = periodicOffset sh strides args := by
  rw [C11_periodic_any_strides _ _ _ h0 hl, C11_periodic_any_strides _ _ _ h0 (by simp [hl, hk]),
    modIndex_shift hl hk]

/-- Fewer arguments: normalisation uses the *first* extents while access is aligned to the right.
Shape (5,2), column-major: `periodic(3)` addresses position 15 of a buffer of 10. -/
theorem C11_fewer_arguments_wrong :
    periodicOffset [5, 2] (computeStrides .column_major .column_major [5, 2]).1 [3] = .ok 15 ∧
    numel [5, 2] = 10 := by decide

/-- A zero extent makes the remainder undefined. -/
theorem C11_zero_extent_ub : periodicOffset [0, 2] [2, 1] [1, 1] = .ub := by decide

example : modIndex [3, 4] [-1, 9] = [2, 1] ∧
    periodicOffset [3, 4] (computeStrides .row_major .row_major [3, 4]).1 [-1, 9] = .ok 9 := by decide

/-! ## C13 Contiguity test -/

theorem stridesMatchRow_spec {zero : Bool} {sh : List Nat} {st : List Int}
    (hl : st.length = sh.length) {ds : Int} (h : stridesMatchRow zero sh st = some ds) :
    ds = numel sh ∧ ∀ idx, InBounds sh idx → dot st (toInts idx) = (rowRank sh idx : Int) := by
  induction sh generalizing st ds with
  | nil =>
    have : st = [] := by cases st <;> simp_all
    subst this
    simp [stridesMatchRow] at h
    exact ⟨by simp [← h], fun idx hb => by simp⟩
  | cons s ss ih =>
    cases st with
    | nil => simp at hl
    | cons x xs =>
      simp only [stridesMatchRow] at h
      cases hm : stridesMatchRow zero ss xs with
      | none => simp [hm] at h
      | some d =>
        obtain ⟨e1, e2⟩ := ih (by simpa using hl) hm
        simp only [hm] at h
        split at h
        · next hc =>
          simp only [Option.some.injEq] at h
          subst e1
          refine ⟨by rw [← h]; simp [Int.mul_comm], fun idx hb => ?_⟩
          cases idx with
          | nil => simp at hb
          | cons i is =>
            simp only [toInts_cons, dot_cons, rowRank_cons, e2 is hb.2]
            simp only [strideMatch, Bool.or_eq_true, Bool.and_eq_true, beq_iff_eq] at hc
            have hi := hb.1
            rcases hc with ⟨⟨h1, h2⟩, _⟩ | h1
            · have : i = 0 := by omega
              subst this; simp
            · rw [h1]; push_cast; ring
        · simp at h

theorem stridesMatchCol_spec {zero : Bool} {sh : List Nat} {st : List Int} {ds : Int}
    (hl : st.length = sh.length) (h : stridesMatchCol zero ds sh st = true) (idx : List Nat)
    (hb : InBounds sh idx) : dot st (toInts idx) = ds * (colRank sh idx : Int) := by
  induction sh generalizing st ds idx with
  | nil => cases idx <;> simp_all
  | cons s ss ih =>
    cases st with
    | nil => simp at hl
    | cons x xs =>
      cases idx with
      | nil => simp at hb
      | cons i is =>
        simp only [stridesMatchCol, Bool.and_eq_true, strideMatch, Bool.or_eq_true,
          beq_iff_eq] at h
        simp only [toInts_cons, dot_cons, colRank_cons, ih (by simpa using hl) h.2 is hb.2]
        have hi := hb.1
        rcases h.1 with ⟨⟨h1, h2⟩, _⟩ | h1
        · have : i = 0 := by omega
          subst this; push_cast; ring
        · rw [h1]; push_cast; ring

/-- Soundness: when the test accepts, every in-bounds index is stored at its rank. -/
theorem C13_contiguity_sound (sh : List Nat) (strides : List Int) (l : Layout) (zero : Bool)
    (hl : strides.length = sh.length) (h : doStridesMatch sh strides l zero = true) :
    (l = .row_major ∨ l = .column_major) ∧
    ∀ idx, InBounds sh idx →
      dataOffset strides false (toInts idx) = (rankIn l sh idx : Int) := by
  unfold doStridesMatch at h
  cases l with
  | row_major =>
    refine ⟨Or.inl rfl, fun idx hb => ?_⟩
    obtain ⟨ds, hd⟩ := Option.isSome_iff_exists.1 h
    rw [dataOffset_eq _ _ (by simp [hl, hb.length_eq])]
    exact (stridesMatchRow_spec hl hd).2 idx hb
  | column_major =>
    refine ⟨Or.inr rfl, fun idx hb => ?_⟩
    rw [dataOffset_eq _ _ (by simp [hl, hb.length_eq]), stridesMatchCol_spec hl h idx hb]
    simp [rankIn]
  | dynamic => simp at h
  | any => simp at h

theorem stridesMatchRow_rowStrides (sh : List Nat) :
    stridesMatchRow true sh (rowStrides sh).1 = some (rowStrides sh).2 := by
  induction sh with
  | nil => rfl
  | cons s ss ih =>
    simp only [rowStrides, stridesMatchRow, ih]
    have : strideMatch (adaptStride s (rowStrides ss).2) s (rowStrides ss).2 true = true := by
      simp only [strideMatch, adaptStride]
      by_cases h : s = 1 <;> simp [h]
    simp [this]

theorem stridesMatchCol_colStrides (sh : List Nat) (ds : Int) :
    stridesMatchCol true ds sh (colStrides ds sh).1 = true := by
  induction sh generalizing ds with
  | nil => rfl
  | cons s ss ih =>
    simp only [colStrides, stridesMatchCol, ih, Bool.and_true]
    simp only [strideMatch, adaptStride]
    by_cases h : s = 1 <;> simp [h]

/-- The strides the library computes pass the test it applies to them. -/
theorem C13_own_strides_match (sh : List Nat) :
    doStridesMatch sh (computeStrides .row_major .row_major sh).1 .row_major true = true ∧
    doStridesMatch sh (computeStrides .column_major .column_major sh).1 .column_major true = true := by
  simp [doStridesMatch, computeStrides, stridesMatchRow_rowStrides, stridesMatchCol_colStrides]

theorem zeros_inBounds {sh : List Nat} (h : 0 ∉ sh) : InBounds sh (List.replicate sh.length 0) := by
  induction sh with
  | nil => trivial
  | cons s ss ih =>
    simp only [List.mem_cons, not_or] at h
    exact ⟨by omega, ih h.2⟩

theorem toInts_replicate (n : Nat) : toInts (List.replicate n 0) = List.replicate n 0 := by
  simp [toInts]

theorem rowRank_zeros (sh : List Nat) (n : Nat) : rowRank sh (List.replicate n 0) = 0 := by
  induction sh generalizing n with
  | nil => simp
  | cons s ss ih => cases n <;> simp [List.replicate_succ, ih]

theorem colRank_zeros (sh : List Nat) (n : Nat) : colRank sh (List.replicate n 0) = 0 := by
  induction sh generalizing n with
  | nil => simp
  | cons s ss ih => cases n <;> simp [List.replicate_succ, ih]

theorem stridesMatchRow_complete {sh : List Nat} {st : List Int} (hl : st.length = sh.length)
    (h0 : 0 ∉ sh) (h1 : ∀ k : Nat, sh[k]? = some 1 → st[k]? = some 0)
    (h : ∀ idx, InBounds sh idx → dot st (toInts idx) = (rowRank sh idx : Int)) :
    stridesMatchRow true sh st = some (numel sh : Int) := by
  induction sh generalizing st with
  | nil =>
    have : st = [] := by cases st <;> simp_all
    simp [this, stridesMatchRow]
  | cons s ss ih =>
    cases st with
    | nil => simp at hl
    | cons x xs =>
      simp only [List.mem_cons, not_or] at h0
      have ih' := ih (st := xs) (by simpa using hl) h0.2
        (fun k hk => by simpa using h1 (k + 1) (by simpa using hk))
        (fun idx hb => by simpa using h (0 :: idx) ⟨by omega, hb⟩)
      simp only [stridesMatchRow, ih']
      have hm : strideMatch x s (numel ss : Int) true = true := by
        simp only [strideMatch, Bool.or_eq_true, Bool.and_eq_true, beq_iff_eq]
        by_cases hs : s = 1
        · left; have := h1 0 (by simp [hs]); simp at this; simp [hs, this]
        · right
          have := h (1 :: List.replicate ss.length 0) ⟨by omega, zeros_inBounds h0.2⟩
          simpa [toInts_replicate, dot_replicate_zero, rowRank_zeros] using this
      simp [hm, Int.mul_comm]

theorem stridesMatchCol_complete {sh : List Nat} {st : List Int} {ds : Int}
    (hl : st.length = sh.length)
    (h0 : 0 ∉ sh) (h1 : ∀ k : Nat, sh[k]? = some 1 → st[k]? = some 0)
    (h : ∀ idx, InBounds sh idx → dot st (toInts idx) = ds * (colRank sh idx : Int)) :
    stridesMatchCol true ds sh st = true := by
  induction sh generalizing st ds with
  | nil =>
    have : st = [] := by cases st <;> simp_all
    simp [this, stridesMatchCol]
  | cons s ss ih =>
    cases st with
    | nil => simp at hl
    | cons x xs =>
      simp only [List.mem_cons, not_or] at h0
      have ih' := ih (st := xs) (ds := ds * (s : Int)) (by simpa using hl) h0.2
        (fun k hk => by simpa using h1 (k + 1) (by simpa using hk))
        (fun idx hb => by
          have := h (0 :: idx) ⟨by omega, hb⟩
          simp only [toInts_cons, dot_cons, colRank_cons] at this
          push_cast at this
          linarith)
      simp only [stridesMatchCol, ih', Bool.and_true]
      simp only [strideMatch, Bool.or_eq_true, Bool.and_eq_true, beq_iff_eq]
      by_cases hs : s = 1
      · left; have := h1 0 (by simp [hs]); simp at this; simp [hs, this]
      · right
        have := h (1 :: List.replicate ss.length 0) ⟨by omega, zeros_inBounds h0.2⟩
        simpa [toInts_replicate, dot_replicate_zero, colRank_zeros] using this

/-- Completeness: for a shape without zero extent, strides that are zero on unit axes and store
every index at its rank are accepted. -/
theorem C13_contiguity_complete (sh : List Nat) (strides : List Int) (l : Layout)
    (hl : strides.length = sh.length) (hlay : l = .row_major ∨ l = .column_major) (h0 : 0 ∉ sh)
    (h1 : ∀ k : Nat, sh[k]? = some 1 → strides[k]? = some 0)
    (h : ∀ idx, InBounds sh idx → dataOffset strides false (toInts idx) = (rankIn l sh idx : Int)) :
    doStridesMatch sh strides l true = true := by
  have h' : ∀ idx, InBounds sh idx → dot strides (toInts idx) = (rankIn l sh idx : Int) :=
    fun idx hb => by rw [← h idx hb, dataOffset_eq _ _ (by simp [hl, hb.length_eq])]
  rcases hlay with rfl | rfl
  · simp [doStridesMatch, stridesMatchRow_complete hl h0 h1 h']
  · exact stridesMatchCol_complete hl h0 h1 (fun idx hb => by rw [h' idx hb]; simp [rankIn])

example : doStridesMatch [2, 1, 3] [3, 0, 1] .row_major true = true ∧
    doStridesMatch [2, 1, 3] [3, 0, 2] .row_major true = false ∧
    doStridesMatch [2, 1, 3] [1, 2, 2] .column_major false = true := by decide

end Xt
