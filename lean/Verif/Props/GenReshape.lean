import Verif.Model.GenReshape
import Verif.Props.Builder
import Verif.Props.StridedView
import Verif.Props.AssignAlias
/-!
# C98: reshaping generators, as in `arange(12).reshape({3, -1})`
-/

namespace Xt
open Spec

variable {α : Type}

theorem ReshapedGen.strides_length (r : ReshapedGen α) : r.strides.length = r.shape.length := by simp [ReshapedGen.strides]

theorem ReshapedGen.strides_unit (r : ReshapedGen α) (k : Nat) (h : r.shape.getD k 0 = 1) : r.strides.getD k 0 = 0 := by
  have := (container_wf (l := .row_major) r.shape 0).unit k h
  simpa [ReshapedGen.strides, computeStrides, StridedArr.container, StridedArr.mk'] using this

/-- Whatever the index, `operator()` and `element` agree. -/
theorem C98_access_agree (r : ReshapedGen α) (args : List Nat) : r.call args = r.element (toInts args) := by
  rw [ReshapedGen.call, ReshapedGen.element, elementOffset_eq_dataOffset]

example : ((arangeSigned 32 0 6 1).bind fun g => (ReshapedGen.mk g [2, 3]).call [1]) = .ok 1 ∧
    ((arangeSigned 32 0 6 1).bind fun g => (ReshapedGen.mk g [2, 3]).element [1]) = .ok 1 := by decide

theorem ReshapedGen.flat_rank (r : ReshapedGen α) (p : Nat) (hp : p < numel r.gen.shape) :
    ∃ j, InBounds r.gen.shape j ∧ rowRank r.gen.shape j = p ∧ r.flat p = r.gen.f j := by
  obtain ⟨j, h1, h2, h3⟩ := C03_ravel_unravel .row_major (.inl rfl) r.gen.shape p hp
  have h4 := (C03_unravel_ravel .row_major (.inl rfl) r.gen.shape j h1).1
  rw [h3] at h4
  refine ⟨j, h1, (Int.natCast_inj.mp h4).symm, ?_⟩
  have h5 : unravelFromStrides (p : Int) (computeStrides .dynamic .row_major r.gen.shape).1 .row_major = some (toInts j) := h2
  rw [ReshapedGen.flat, h5, orUb, Res.bind_ok, show (toInts j).map Int.toNat = j by simp [toInts, Function.comp_def], Gen.elem_inBounds _ h1]

/-- A reshaped generator of as many elements: the element at an index is that of the generator with the same place in row-major
order. -/
theorem C98_reshape (r : ReshapedGen α) (hn : numel r.shape = numel r.gen.shape) (idx : List Nat) (hi : InBounds r.shape idx) :
    ∃ j, InBounds r.gen.shape j ∧ rowRank r.gen.shape j = rowRank r.shape idx ∧
      r.call idx = r.gen.f j ∧ r.element (toInts idx) = r.gen.f j := by
  have hoff : dataOffset r.strides false (toInts idx) = (rowRank r.shape idx : Int) := by
    rw [dataOffset_eq _ _ (by simp [ReshapedGen.strides, hi.length_eq])]
    exact dot_computeStrides_row (.inr rfl) hi
  obtain ⟨j, h1, h2, h3⟩ := r.flat_rank (rowRank r.shape idx) (by rw [← hn]; exact rowRank_lt hi)
  refine ⟨j, h1, h2, ?_, ?_⟩
  · rw [ReshapedGen.call, hoff, h3]
  · rw [← C98_access_agree, ReshapedGen.call, hoff, h3]

example : ((arangeSigned 32 0 6 1).bind fun g => (ReshapedGen.mk g [2, 3]).call [1, 2]) = .ok 5 ∧
    numel [2, 3] = numel [6] ∧ InBounds [2, 3] [1, 2] := by decide

theorem ReshapedGen.element_at (r : ReshapedGen α) {sh idx : List Nat} {ix : List Int} (h : BroadcastsTo r.shape sh)
    (hb : InBounds sh idx) (hR : GAt r.shape ix idx) : r.element ix = r.call (bcIndex r.shape idx) := by
  have hl := h.1
  have hlen := hb.length_eq
  rw [C98_access_agree, ReshapedGen.element, ReshapedGen.element, elementOffset_eq _ _ (by rw [hR.1, r.strides_length]),
    elementOffset_eq _ _ (by simp [toInts, length_bcIndex (show r.shape.length ≤ idx.length by omega), r.strides_length])]
  congr 1
  rw [← sum_range_dot _ _ r.shape.length r.strides_length hR.1,
    ← sum_range_dot _ _ r.shape.length r.strides_length
      (by simp [toInts, length_bcIndex (show r.shape.length ≤ idx.length by omega)])]
  congr 1
  apply List.map_congr_left
  intro k hk
  have hk : k < r.shape.length := by simpa using hk
  by_cases hu : r.shape.getD k 0 = 1
  · rw [r.strides_unit k hu]; simp only [Int.zero_mul]
  · have e : ∀ l : List Nat, (toInts l).getD k 0 = (l.getD k 0 : Int) := by
      intro l
      simp only [toInts, List.getD_eq_getElem?_getD, List.getElem?_map]
      cases l[k]? <;> simp
    rw [e, getD_bcIndex (by omega) hk, if_neg hu, hR.2.2 k hk hu]

/-- Iterating over a reshaped generator, in either order and under every shape it broadcasts to, reads for each index the
element that broadcasting assigns to it. -/
theorem C98_iteration (r : ReshapedGen α) (L : Layout) (hL : L = .row_major ∨ L = .column_major) (sh : List Nat)
    (h : BroadcastsTo r.shape sh) : r.walk L sh = (orderIndices L sh).map fun idx => r.call (bcIndex r.shape idx) := by
  have hn : sh.foldl (· * ·) 1 = numel sh := by rw [foldl_mul_eq]; omega
  unfold ReshapedGen.walk
  by_cases h0 : numel sh = 0
  · have h1 : (orderIndices L sh).length = 0 := by rw [length_orderIndices, h0]
    rw [List.eq_nil_of_length_eq_zero h1]
    simp [XIter.walk, XIter.equal, XIter.mkBegin, XIter.mkEnd, hn, h0]
  · have hz : GAt r.shape (List.replicate r.shape.length (0 : Int)) (List.replicate sh.length 0) := by
      refine ⟨by simp, by simpa using h.1, fun k hk _ => ?_⟩
      simp [List.getD_eq_getElem?_getD, List.getElem?_replicate]
      split <;> split <;> simp
    have hb := iterAt_begin (L := L) (R := GAt r.shape) (E := fun _ => True) (by omega) hz
    obtain ⟨h1, h2⟩ := walk_spec (E := fun _ => True) hL (gen_fwd h) (fun _ _ _ _ => trivial)
      (XIter.mkEnd ((xindexedOps r.shape (sh.length - r.shape.length)).toEnd (List.replicate r.shape.length (0 : Int))
        .row_major) L sh) (by simp [XIter.mkEnd, hn]) (numel sh + 1) 0 _ hb (by omega) (by omega)
    apply List.ext_getElem?
    intro i
    simp only [List.getElem?_map]
    by_cases hi : i < numel sh
    · obtain ⟨st, hst⟩ : ∃ st, (XIter.walk (xindexedOps r.shape (sh.length - r.shape.length)) L sh (XIter.mkEnd
          ((xindexedOps r.shape (sh.length - r.shape.length)).toEnd (List.replicate r.shape.length (0 : Int)) .row_major) L sh)
          (numel sh + 1) (XIter.mkBegin (List.replicate r.shape.length (0 : Int)) sh))[i]? = some st :=
        ⟨_, List.getElem?_eq_getElem (by rw [h1]; omega)⟩
      obtain ⟨idx, a, b, c⟩ := h2 i st hst
      obtain ⟨j, hj⟩ : ∃ j, (orderIndices L sh)[i]? = some j :=
        ⟨_, List.getElem?_eq_getElem (by rw [length_orderIndices]; exact hi)⟩
      obtain ⟨hj1, hj2⟩ := rankIn_orderIndices hj
      have : idx = j := rankIn_inj (L := L) a hj1 (by omega)
      subst this
      rw [hst, hj, Option.map_some, Option.map_some, r.element_at h a c]
    · rw [List.getElem?_eq_none (by rw [h1]; omega), List.getElem?_eq_none (by rw [length_orderIndices]; omega)]
      rfl

example : ((arangeSigned 32 0 6 1).map fun g => (ReshapedGen.mk g [2, 3]).walk .column_major [2, 2, 3]) =
    .ok [.ok 0, .ok 0, .ok 3, .ok 3, .ok 1, .ok 1, .ok 4, .ok 4, .ok 2, .ok 2, .ok 5, .ok 5] := by decide

/-- Iterating over a reshaped generator in row-major order gives the elements of the generator in row-major order. -/
theorem C98_flat_order (r : ReshapedGen α) (hn : numel r.shape = numel r.gen.shape) :
    r.walk .row_major r.shape = (rowIndices r.gen.shape).map r.gen.f := by
  have hrefl : BroadcastsTo r.shape r.shape := broadcastsTo_refl _
  rw [C98_iteration r .row_major (.inl rfl) r.shape hrefl]
  apply List.ext_getElem?
  intro i
  simp only [List.getElem?_map]
  by_cases hi : i < numel r.shape
  · obtain ⟨a, ha⟩ : ∃ a, (orderIndices .row_major r.shape)[i]? = some a :=
      ⟨_, List.getElem?_eq_getElem (by rw [length_orderIndices]; exact hi)⟩
    obtain ⟨b, hb⟩ : ∃ b, (orderIndices .row_major r.gen.shape)[i]? = some b :=
      ⟨_, List.getElem?_eq_getElem (by rw [length_orderIndices]; omega)⟩
    obtain ⟨ha1, ha2⟩ := rankIn_orderIndices ha
    obtain ⟨hb1, hb2⟩ := rankIn_orderIndices hb
    have hb' : (rowIndices r.gen.shape)[i]? = some b := hb
    rw [ha, hb', Option.map_some, Option.map_some, bcIndex_self ha1]
    obtain ⟨j, h1, h2, h3, -⟩ := C98_reshape r hn a ha1
    have : j = b := rowRank_inj h1 hb1 (by
      have e1 : rowRank r.shape a = i := ha2
      have e2 : rowRank r.gen.shape b = i := hb2
      omega)
    rw [h3, this]
  · rw [List.getElem?_eq_none (by rw [length_orderIndices]; omega),
      List.getElem?_eq_none (by
        have := length_orderIndices .row_major r.gen.shape
        have e : (rowIndices r.gen.shape).length = numel r.gen.shape := this
        rw [e]; omega)]
    rfl

example : ((arangeSigned 32 10 16 1).map fun g => (ReshapedGen.mk g [3, 2]).walk .row_major [3, 2]) =
    .ok [.ok 10, .ok 11, .ok 12, .ok 13, .ok 14, .ok 15] := by decide

/-- `arange(start, stop, step).reshape({m, n})`. -/
theorem C98_arange {w : Nat} {start stop step : Int} {g : Gen Int} (h : arangeSigned w start stop step = .ok g) (m n i j : Nat)
    (hg : g.shape = [m * n]) (hi : i < m) (hj : j < n) :
    (ReshapedGen.mk g [m, n]).call [i, j] = .ok (start + step * (i * n + j)) := by
  obtain ⟨k, -, h2, h3⟩ := C38_arange_values h
  obtain ⟨a, ha, hr, hc, -⟩ := C98_reshape (ReshapedGen.mk g [m, n]) (by simp [hg, numel]) [i, j] ⟨hi, hj, trivial⟩
  rw [hc]
  have ha' : InBounds g.shape a := ha
  rw [hg] at ha'
  match a, ha' with
  | [p], hp =>
    have hr' : rowRank g.shape [p] = rowRank [m, n] [i, j] := hr
    rw [hg] at hr'
    simp [rowRank, numel] at hr'
    have hk : k = m * n := by rw [hg] at h2; simpa using h2.symm
    have hv := (h3 p (by rw [hk]; exact hp.1)).2
    rw [Gen.elem_inBounds _ ha] at hv
    show g.f [p] = _
    rw [hv, hr']; push_cast; rfl

example : (arangeSigned 32 5 29 2).bind (fun g => (ReshapedGen.mk g [3, 4]).call [2, 1]) = .ok (5 + 2 * (2 * 4 + 1)) := by decide

theorem genShapeLoop_append (w : Nat) (a b : List Int) (i : Nat) (sh : List Nat) (acc : Int) (neg : Nat) :
    genShapeLoop w (a ++ b) i sh acc neg =
      (genShapeLoop w a i sh acc neg).bind fun r => genShapeLoop w b (i + a.length) r.1 r.2.1 r.2.2 := by
  induction a generalizing i sh acc neg with
  | nil => rfl
  | cons d a ih =>
    simp only [List.cons_append, genShapeLoop]
    cases signedFit w (acc * d) with
    | ok v =>
      simp only [Res.bind_ok]
      split <;> rw [ih] <;> simp [Nat.add_assoc, Nat.add_comm 1]
    | throws => rfl
    | ub => rfl

theorem genShapeLoop_nat (w : Nat) (ds : List Nat) (i : Nat) (sh : List Nat) (acc : Int) (neg : Nat)
    (h : ∀ n, |acc| * (numel (ds.take n) : Int) < 2 ^ (w - 1)) :
    genShapeLoop w (toInts ds) i sh acc neg = .ok (sh ++ ds, acc * (numel ds : Int), neg) := by
  induction ds generalizing i sh acc with
  | nil => simp [toInts, genShapeLoop, numel]
  | cons d ds ih =>
    have h1 := h 1
    simp only [List.take_succ_cons, List.take_zero, numel, Nat.mul_one] at h1
    have h2 : |acc * (d : Int)| < 2 ^ (w - 1) := by rw [abs_mul, Nat.abs_cast]; exact h1
    have h3 := abs_lt.1 h2
    have hf : signedFit w (acc * (d : Int)) = .ok (acc * (d : Int)) := by
      unfold signedFit; rw [if_pos ⟨le_of_lt h3.1, h3.2⟩]
    show (signedFit w (acc * (d : Int))).bind _ = _
    rw [hf, Res.bind_ok, if_neg (show ¬ (Int.ofNat d < 0) by simp)]
    have := ih (i + 1) (sh ++ [d]) (acc * (d : Int)) (fun n => by
      have := h (n + 1)
      simp only [List.take_succ_cons, numel] at this
      rw [abs_mul, Nat.abs_cast, mul_assoc]; push_cast at this; exact this)
    rw [show ((Int.ofNat d).toNat) = d from rfl]
    rw [show List.map Int.ofNat ds = toInts ds from rfl, this]
    simp [numel, mul_assoc]

/-- A shape without negative extents is kept, whatever the number of elements of the generator. -/
theorem C98_signed_shape (w size : Nat) (shape : List Nat) (hw : ∀ n, numel (shape.take n) < 2 ^ (w - 1)) :
    genComputeShape w size (toInts shape) = .ok shape := by
  unfold genComputeShape
  rw [genShapeLoop_nat w shape 0 [] 1 0 (fun n => by
    have := hw n
    simp only [abs_one, one_mul]
    exact_mod_cast this)]
  simp only [Res.bind_ok, one_mul, List.nil_append]
  rw [if_neg (by omega)]

example : genComputeShape 32 24 (toInts [2, 3, 4]) = .ok [2, 3, 4] := by decide

theorem numel_take_le (l : List Nat) (h : 0 < numel l) (n : Nat) : numel (l.take n) ≤ numel l := by
  have e := numel_append (l.take n) (l.drop n)
  rw [List.take_append_drop] at e
  have : 0 < numel (l.drop n) := by
    rcases Nat.eq_zero_or_pos (numel (l.drop n)) with h0 | h0
    · rw [h0, Nat.mul_zero] at e; omega
    · exact h0
  rw [e]; exact Nat.le_mul_of_pos_right _ this

/-- One `-1` stands for the extent that keeps the number of elements, provided the others divide it. -/
theorem C98_placeholder (w : Nat) (pre post : List Nat) (size : Nat) (hpos : 0 < numel pre * numel post)
    (hw : numel pre * numel post < 2 ^ (w - 1)) (hd : numel pre * numel post ∣ size) :
    ∃ k, genComputeShape w size (toInts pre ++ [-1] ++ toInts post) = .ok (pre ++ [k] ++ post) ∧
      numel (pre ++ [k] ++ post) = size := by
  obtain ⟨k, rfl⟩ := hd
  have hp1 : 0 < numel pre := Nat.pos_of_mul_pos_right hpos
  have hp2 : 0 < numel post := Nat.pos_of_mul_pos_left hpos
  have hpre : ∀ n, numel (pre.take n) < 2 ^ (w - 1) := fun n =>
    lt_of_le_of_lt (le_trans (numel_take_le pre hp1 n) (Nat.le_mul_of_pos_right _ hp2)) hw
  have hall : numel pre < 2 ^ (w - 1) := lt_of_le_of_lt (Nat.le_mul_of_pos_right _ hp2) hw
  have hallI : (numel pre : Int) < 2 ^ (w - 1) := by exact_mod_cast hall
  have hwI : (numel pre : Int) * numel post < 2 ^ (w - 1) := by exact_mod_cast hw
  have hposI : 0 < (numel pre : Int) * numel post := by exact_mod_cast hpos
  refine ⟨k, ?_, ?_⟩
  · unfold genComputeShape
    rw [genShapeLoop_append, genShapeLoop_append, genShapeLoop_nat w pre 0 [] 1 0 (fun n => by
      have := hpre n
      simp only [abs_one, one_mul]
      exact_mod_cast this)]
    simp only [Res.bind_ok, one_mul, List.nil_append]
    have hs : genShapeLoop w [-1] (0 + (toInts pre).length) pre (numel pre : Int) 0 =
        .ok (pre ++ [0], -(numel pre : Int), pre.length) := by
      have hf : signedFit w ((numel pre : Int) * -1) = .ok (-(numel pre : Int)) := by
        unfold signedFit
        rw [if_pos (by constructor <;> omega), mul_neg_one]
      simp only [genShapeLoop]
      rw [hf, Res.bind_ok, if_pos (by omega)]
      simp [toInts]
    rw [hs]
    simp only [Res.bind_ok]
    rw [genShapeLoop_nat w post _ _ _ _ (fun n => by
      rw [abs_neg, Nat.abs_cast]
      have : numel pre * numel (post.take n) < 2 ^ (w - 1) :=
        lt_of_le_of_lt (Nat.mul_le_mul_left _ (numel_take_le post hp2 n)) hw
      exact_mod_cast this)]
    simp only [Res.bind_ok]
    have hneg : -(numel pre : Int) * (numel post : Int) = -((numel pre : Int) * numel post) := by ring
    rw [hneg, if_pos (by omega), neg_neg]
    have hf : signedFit w ((numel pre : Int) * numel post) = .ok ((numel pre : Int) * numel post) := by
      unfold signedFit; rw [if_pos (by constructor <;> omega)]
    rw [hf, Res.bind_ok, ← Nat.cast_mul, Int.toNat_natCast, Nat.mul_div_cancel_left _ hpos]
    simp
  · rw [numel_append, numel_append]; simp [numel]; ring

example : genComputeShape 32 24 [2, -1, 3] = .ok [2, 4, 3] := by decide

/-- Reshaped to a shape with more elements, a generator of one axis is not refused: every place past the last element reads the
last element again. -/
theorem C98_too_large_wrong (r : ReshapedGen α) (n : Nat) (hg : r.gen.shape = [n]) (hn : 0 < n) (idx : List Nat)
    (hi : InBounds r.shape idx) (hp : n ≤ rowRank r.shape idx) : r.call idx = r.gen.f [n - 1] := by
  have hoff : dataOffset r.strides false (toInts idx) = (rowRank r.shape idx : Int) := by
    rw [dataOffset_eq _ _ (by simp [ReshapedGen.strides, hi.length_eq])]
    exact dot_computeStrides_row (.inr rfl) hi
  rw [ReshapedGen.call, hoff]
  generalize rowRank r.shape idx = p at hp
  have hst : (computeStrides .dynamic .row_major [n]).1 = [if n = 1 then 0 else 1] := by
    have h0 := C02_row_stride (L := .dynamic) (l := .row_major) (.inr rfl) [n] 0 n rfl
    have hl : (computeStrides .dynamic .row_major [n]).1.length = 1 := by simp
    match h : (computeStrides .dynamic .row_major [n]).1, hl with
    | [s], _ =>
      rw [h] at h0
      simp at h0
      simp [h0]
  unfold ReshapedGen.flat
  rw [hg, hst]
  by_cases h1 : n = 1
  · subst h1
    simp [unravelFromStrides, unravelRow, orUb, Res.bind_ok, Gen.elem, hg]
  · simp [h1, unravelFromStrides, unravelRow, orUb, Res.bind_ok, Gen.elem, hg, unravelStep]
    congr 2; omega

example : (arangeSigned 32 0 5 1).bind (fun g => (ReshapedGen.mk g [2, 4]).call [1, 3]) = .ok 4 := by decide

/-- `compute_shape` accepts what it should refuse: an extent for `-1` that does not divide is truncated, so elements are
dropped; any negative number is a placeholder, and its value enters the division; two of them give extents of zero; and the
product is computed in the type of the extents, where it can overflow. -/
theorem C98_compute_shape_wrong :
    genComputeShape 32 50 [-1, 7] = .ok [7, 7] ∧ genComputeShape 32 50 [-2, 5] = .ok [5, 5] ∧
      genComputeShape 32 12 [-1, -1] = .ok [0, 0] ∧ genComputeShape 32 12 [0, -1] = .ok [0, 0] ∧
      genComputeShape 32 12 [65536, 32768, 0] = .ub := by decide

end Xt
