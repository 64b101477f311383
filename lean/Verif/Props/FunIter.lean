import Verif.Model.FunIter
import Verif.Props.Assign
/-!
# C81: linear iterators of functions
-/

namespace Xt
open Spec

variable {α β : Type}

/-! ### Specification -/

mutual
/-- A scalar, possibly broadcast. -/
def Spec.scalarLike : Ex α → Bool
  | .scalar _ => true
  | .bcast e _ => scalarLike e
  | _ => false
end

mutual
/-- The first operand that is not a scalar, followed through functions, ends at an array or a
generator: `a + s`, `s * a`, `(a + s) * b`, but not `s + t` and not `(s + t) * a`. -/
def Spec.keyed : Ex α → Bool
  | .arr _ _ => true
  | .scalar _ => false
  | .gen _ _ => true
  | .fn _ args => keyedAll args
  | .bcast e _ => keyed e
/-- The same for operands. -/
def Spec.keyedAll : Args α → Bool
  | .nil => false
  | .cons e es => if scalarLike e then keyedAll es else keyed e
end

mutual
/-- Some operand is an array or a generator. -/
def Spec.hasArray : Ex α → Bool
  | .arr _ _ => true
  | .scalar _ => false
  | .gen _ _ => true
  | .fn _ args => haveArray args
  | .bcast e _ => hasArray e
/-- The same for operands. -/
def Spec.haveArray : Args α → Bool
  | .nil => false
  | .cons e es => hasArray e || haveArray es
end

mutual
/-- Arrays have the shape of the whole and are stored in the order of `L`; generators have the shape of the whole and the order
is row-major. -/
def Spec.FlatIn (L : Layout) (sh : List Nat) : Ex α → Prop
  | .arr c _ => c.shape = sh ∧ Contig L c
  | .scalar _ => True
  | .gen s _ => s = sh ∧ L = .row_major
  | .fn _ args => FlatInAll L sh args
  | .bcast e _ => FlatIn L sh e
/-- The same for operands. -/
def Spec.FlatInAll (L : Layout) (sh : List Nat) : Args α → Prop
  | .nil => True
  | .cons e es => FlatIn L sh e ∧ FlatInAll L sh es
end

/-! ### Arithmetic -/

mutual
theorem LIt.add_add (a b : Int) : ∀ it : LIt, (it.add a).add b = it.add (a + b)
  | .ptr p => by simp [LIt.add, Int.add_assoc]
  | .pos p => by simp [LIt.add, Int.add_assoc]
  | .dummy => rfl
  | .tup its => by simp only [LIt.add, LIts.adds_adds a b its]
theorem LIts.adds_adds (a b : Int) : ∀ its : LIts, (its.adds a).adds b = its.adds (a + b)
  | .nil => rfl
  | .cons it its => by simp only [LIts.adds, LIt.add_add a b it, LIts.adds_adds a b its]
end

mutual
theorem LIt.add_zero : ∀ it : LIt, it.add 0 = it
  | .ptr p => by simp [LIt.add]
  | .pos p => by simp [LIt.add]
  | .dummy => rfl
  | .tup its => by simp only [LIt.add, LIts.adds_zero its]
theorem LIts.adds_zero : ∀ its : LIts, its.adds 0 = its
  | .nil => rfl
  | .cons it its => by simp only [LIts.adds, LIt.add_zero it, LIts.adds_zero its]
end

mutual
theorem LIt.next_eq : ∀ it : LIt, it.next = it.add 1
  | .ptr p => rfl
  | .pos p => rfl
  | .dummy => rfl
  | .tup its => by simp only [LIt.add, LIt.next, LIts.nexts_eq its]
theorem LIts.nexts_eq : ∀ its : LIts, its.nexts = its.adds 1
  | .nil => rfl
  | .cons it its => by simp only [LIts.adds, LIts.nexts, LIt.next_eq it, LIts.nexts_eq its]
end

mutual
theorem LIt.prev_eq : ∀ it : LIt, it.prev = it.add (-1)
  | .ptr p => rfl
  | .pos p => rfl
  | .dummy => rfl
  | .tup its => by simp only [LIt.add, LIt.prev, LIts.prevs_eq its]
theorem LIts.prevs_eq : ∀ its : LIts, its.prevs = its.adds (-1)
  | .nil => rfl
  | .cons it its => by simp only [LIts.adds, LIts.prevs, LIt.prev_eq it, LIts.prevs_eq its]
end

mutual
theorem LIt.sub_eq (n : Int) : ∀ it : LIt, it.sub n = it.add (-n)
  | .ptr p => rfl
  | .pos p => rfl
  | .dummy => rfl
  | .tup its => by simp only [LIt.add, LIt.sub, LIts.subs_eq n its]
theorem LIts.subs_eq (n : Int) : ∀ its : LIts, its.subs n = its.adds (-n)
  | .nil => rfl
  | .cons it its => by simp only [LIts.adds, LIts.subs, LIt.sub_eq n it, LIts.subs_eq n its]
end

/-- C81: `++`, `--`, `+=`, `-=` of iterators of any function are steps along one line. -/
theorem C81_arithmetic (it : LIt) (a b : Int) :
    (it.add a).add b = it.add (a + b) ∧ it.add 0 = it ∧ (it.add a).sub b = it.add (a - b) ∧
    it.next = it.add 1 ∧ it.prev = it.sub 1 ∧ it.next.prev = it ∧ it.prev.next = it := by
  refine ⟨LIt.add_add a b it, LIt.add_zero it, ?_, LIt.next_eq it, ?_, ?_, ?_⟩
  · rw [LIt.sub_eq, LIt.add_add]; rfl
  · rw [LIt.prev_eq, LIt.sub_eq]
  · rw [LIt.prev_eq, LIt.next_eq, LIt.add_add]; exact LIt.add_zero it
  · rw [LIt.prev_eq, LIt.next_eq, LIt.add_add]; exact LIt.add_zero it

example : (LIt.tup (.cons (.ptr 3) (.cons .dummy (.cons (.pos 0) .nil)))).add 2 =
    .tup (.cons (.ptr 5) (.cons .dummy (.cons (.pos 2) .nil))) := rfl

/-! ### Distance -/

mutual
theorem Ex.lin_diff {a b : Int} (h : b ≤ a) : ∀ e : Ex α,
    (e.linBegin.add a).diff (e.linBegin.add b) = if hasArray e then a - b else 0
  | .arr c _ => by simp only [Ex.linBegin, LIt.add, LIt.diff, hasArray, if_true]; omega
  | .scalar _ => rfl
  | .gen _ _ => by simp only [Ex.linBegin, LIt.add, LIt.diff, hasArray, if_true]; omega
  | .fn _ args => by
    simp only [Ex.linBegin, LIt.add, LIt.diff, hasArray]
    exact Args.lin_diff h args 0 (le_refl 0) (by omega)
  | .bcast e _ => by simp only [Ex.linBegin, hasArray]; exact Ex.lin_diff h e
theorem Args.lin_diff {a b : Int} (h : b ≤ a) : ∀ (es : Args α) (n : Int), 0 ≤ n → n ≤ a - b →
    (es.linBegins.adds a).maxDiff (es.linBegins.adds b) n = if haveArray es then a - b else n
  | .nil, n, _, _ => rfl
  | .cons e es, n, h0, h1 => by
    have hv : haveArray (.cons e es) = (hasArray e || haveArray es) := rfl
    simp only [hv, Args.linBegins, LIts.adds, LIts.maxDiff]
    rw [Ex.lin_diff h e]
    by_cases hh : hasArray e = true
    · rw [if_pos hh, show max n (a - b) = a - b by omega,
        Args.lin_diff h es (a - b) (by omega) (le_refl _)]
      simp [hh]
    · rw [if_neg hh, show max n 0 = n by omega, Args.lin_diff h es n h0 h1]
      simp [hh]
end

/-- C81 (partial: not from a later iterator to an earlier one): the distance of two iterators of an
expression with an array or a generator in it is the number of steps between them. -/
theorem C81_distance_partial (e : Ex α) (h : hasArray e = true) (a b : Int) (hab : b ≤ a) :
    (e.linBegin.add a).diff (e.linBegin.add b) = a - b := by rw [Ex.lin_diff hab, h]; rfl

/-- Two operands of four elements. -/
def twoByTwo (L : Layout) (off : Int) : StridedArr := StridedArr.container L [2, 2] off

example : hasArray (.fn List.sum (.cons (.scalar 5) (.cons (.arr (twoByTwo .row_major 0) fun p => p.toNat) .nil)) : Ex Nat) = true ∧
    (0 : Int) ≤ 4 := by decide

/-- From a later iterator to an earlier one the distance of a function is 0, of an array negative:
`f.linear_begin() - f.linear_end()` is 0. -/
theorem C81_backward_distance_wrong :
    let a : Ex Nat := .arr (twoByTwo .row_major 0) fun p => p.toNat
    let f : Ex Nat := .fn List.sum (.cons a (.cons (.scalar 5) .nil))
    a.linEnd = a.linBegin.add 4 ∧ f.linEnd = f.linBegin.add 4 ∧
    a.linBegin.diff a.linEnd = -4 ∧ f.linEnd.diff f.linBegin = 4 ∧ f.linBegin.diff f.linEnd = 0 :=
  ⟨rfl, rfl, by decide, by decide, by decide⟩

/-! ### Comparison -/

theorem Ex.lin_isDummy (a : Int) : ∀ e : Ex α, (e.linBegin.add a).isDummy = scalarLike e
  | .arr _ _ => rfl
  | .scalar _ => rfl
  | .gen _ _ => rfl
  | .fn _ _ => rfl
  | .bcast e _ => Ex.lin_isDummy a e

theorem scalarLike_not_keyed : ∀ e : Ex α, scalarLike e = true → keyed e = false
  | .arr _ _, h => by simp [scalarLike] at h
  | .scalar _, _ => rfl
  | .gen _ _, h => by simp [scalarLike] at h
  | .fn _ _, h => by simp [scalarLike] at h
  | .bcast e _, h => scalarLike_not_keyed e h

theorem keyedAll_anyLive (a : Int) : ∀ es : Args α, (es.linBegins.adds a).anyLive = false →
    keyedAll es = false
  | .nil, _ => rfl
  | .cons e es, h => by
    simp only [Args.linBegins, LIts.adds, LIts.anyLive, Ex.lin_isDummy, Bool.or_eq_false_iff,
      Bool.not_eq_false'] at h
    simp only [keyedAll, h.1, if_true]
    exact keyedAll_anyLive a es h.2

mutual
theorem Ex.lin_equal (a b : Int) : ∀ e : Ex α,
    (e.linBegin.add a).equal (e.linBegin.add b) = (!keyed e || a == b)
  | .arr c _ => by
    simp only [Ex.linBegin, LIt.add, LIt.equal, keyed, Bool.not_true, Bool.false_or]
    rw [Bool.eq_iff_iff, beq_iff_eq, beq_iff_eq]; omega
  | .scalar _ => rfl
  | .gen _ _ => by
    simp only [Ex.linBegin, LIt.add, LIt.equal, keyed, Bool.not_true, Bool.false_or]
    rw [Bool.eq_iff_iff, beq_iff_eq, beq_iff_eq]; omega
  | .fn _ args => by
    simp only [Ex.linBegin, LIt.add, LIt.equal, keyed]
    cases h : (args.linBegins.adds a).anyLive with
    | true => exact Args.lin_equalAt a b args
    | false =>
      rw [keyedAll_anyLive a args h]
      exact Args.lin_equal_dead a b args h
  | .bcast e _ => by simp only [Ex.linBegin, keyed]; exact Ex.lin_equal a b e
theorem Args.lin_equalAt (a b : Int) : ∀ es : Args α,
    (es.linBegins.adds a).equalAt (es.linBegins.adds b) true = (!keyedAll es || a == b)
  | .nil => rfl
  | .cons e es => by
    simp only [Args.linBegins, LIts.adds, LIts.equalAt, Ex.lin_isDummy, Bool.true_and, keyedAll]
    cases scalarLike e with
    | true => simp only [if_true]; exact Args.lin_equalAt a b es
    | false => simp only [Bool.false_eq_true, if_false]; exact Ex.lin_equal a b e
theorem Args.lin_equal_dead (a b : Int) : ∀ es : Args α, (es.linBegins.adds a).anyLive = false →
    (es.linBegins.adds a).equalAt (es.linBegins.adds b) false = true
  | .nil, _ => rfl
  | .cons e es, h => by
    simp only [Args.linBegins, LIts.adds, LIts.anyLive, Ex.lin_isDummy, Bool.or_eq_false_iff,
      Bool.not_eq_false'] at h
    simp only [Args.linBegins, LIts.adds, LIts.equalAt, Bool.false_and, Bool.false_eq_true, if_false]
    rw [Ex.lin_equal a b e, scalarLike_not_keyed e h.1]; rfl
end

mutual
theorem Ex.lin_less (a b : Int) : ∀ e : Ex α,
    (e.linBegin.add a).less (e.linBegin.add b) = (keyed e && decide (a < b))
  | .arr c _ => by
    simp only [Ex.linBegin, LIt.add, LIt.less, keyed, Bool.true_and]
    rw [decide_eq_decide]; omega
  | .scalar _ => rfl
  | .gen _ _ => by
    simp only [Ex.linBegin, LIt.add, LIt.less, keyed, Bool.true_and]
    rw [decide_eq_decide]; omega
  | .fn _ args => by
    simp only [Ex.linBegin, LIt.add, LIt.less, keyed]
    cases h : (args.linBegins.adds a).anyLive with
    | true => exact Args.lin_lessAt a b args
    | false =>
      rw [keyedAll_anyLive a args h]
      exact Args.lin_less_dead a b args h
  | .bcast e _ => by simp only [Ex.linBegin, keyed]; exact Ex.lin_less a b e
theorem Args.lin_lessAt (a b : Int) : ∀ es : Args α,
    (es.linBegins.adds a).lessAt (es.linBegins.adds b) true = (keyedAll es && decide (a < b))
  | .nil => rfl
  | .cons e es => by
    simp only [Args.linBegins, LIts.adds, LIts.lessAt, Ex.lin_isDummy, Bool.true_and, keyedAll]
    cases scalarLike e with
    | true => simp only [if_true]; exact Args.lin_lessAt a b es
    | false => simp only [Bool.false_eq_true, if_false]; exact Ex.lin_less a b e
theorem Args.lin_less_dead (a b : Int) : ∀ es : Args α, (es.linBegins.adds a).anyLive = false →
    (es.linBegins.adds a).lessAt (es.linBegins.adds b) false = false
  | .nil, _ => rfl
  | .cons e es, h => by
    simp only [Args.linBegins, LIts.adds, LIts.anyLive, Ex.lin_isDummy, Bool.or_eq_false_iff,
      Bool.not_eq_false'] at h
    simp only [Args.linBegins, LIts.adds, LIts.lessAt, Bool.false_and, Bool.false_eq_true, if_false]
    rw [Ex.lin_less a b e, scalarLike_not_keyed e h.1]; rfl
end

/-- C81 (partial: the first operand that is not a scalar must lead to an array or a generator):
iterators are equal exactly at the same position, and less exactly at an earlier one. -/
theorem C81_order_partial (e : Ex α) (h : keyed e = true) (a b : Int) :
    ((e.linBegin.add a).equal (e.linBegin.add b) = true ↔ a = b) ∧
    ((e.linBegin.add a).less (e.linBegin.add b) = true ↔ a < b) := by
  rw [Ex.lin_equal, Ex.lin_less, h]; simp

example : keyed (.fn List.sum (.cons (.scalar 5)
    (.cons (.fn List.sum (.cons (.gen [3] fun _ => 1) (.cons (.scalar 2) .nil))) .nil)) : Ex Nat) = true := by decide

/-- All other expressions — functions of scalars, and functions whose first operand that is no scalar is
such a function — have iterators that are all equal: `linear_begin() == linear_end()`, and no linear
traversal reads anything. -/
theorem C81_scalars_wrong (e : Ex α) (h : keyed e = false) :
    (∀ a b : Int, (e.linBegin.add a).equal (e.linBegin.add b) = true ∧
      (e.linBegin.add a).less (e.linBegin.add b) = false) ∧
    ∀ n : Int, e.linEnd = e.linBegin.add n → ∀ fuel, e.linWalk e.linEnd fuel e.linBegin = [] := by
  have h1 : ∀ a b : Int, (e.linBegin.add a).equal (e.linBegin.add b) = true := by
    intro a b; rw [Ex.lin_equal, h]; rfl
  refine ⟨fun a b => ⟨h1 a b, by rw [Ex.lin_less, h]; rfl⟩, fun n hn fuel => ?_⟩
  cases fuel with
  | zero => rfl
  | succ k =>
    have := h1 0 n
    rw [LIt.add_zero, ← hn] at this
    show (if e.linBegin.equal e.linEnd = true then [] else _) = _
    rw [if_pos this]

/-- `(s + t) * a` over four elements: nothing is read, though the distance says 4. -/
example : let a : Ex Nat := .arr (twoByTwo .row_major 0) fun p => p.toNat
    let e : Ex Nat := .fn List.sum (.cons (.fn List.sum (.cons (.scalar 1) (.cons (.scalar 2) .nil))) (.cons a .nil))
    keyed e = false ∧ hasArray e = true ∧ e.linEnd = e.linBegin.add 4 ∧ e.linEnd.diff e.linBegin = 4 ∧
    e.linWalk e.linEnd 5 e.linBegin = [] := ⟨by decide, by decide, rfl, by decide, by decide⟩

/-! ### Elements -/

theorem linIndexAt_rowRank : ∀ {sh idx : List Nat}, InBounds sh idx → linIndexAt sh (rowRank sh idx) = idx
  | [], [], _ => rfl
  | [], _ :: _, h => h.elim
  | _ :: _, [], h => h.elim
  | n :: sh, i :: idx, h => by
    have h1 : rowRank sh idx < numel sh := rowRank_lt h.2
    have h2 : sh.foldl (· * ·) 1 = numel sh := by rw [foldl_mul_eq, Nat.one_mul]
    simp only [linIndexAt, h2, rowRank]
    have e1 : (i * numel sh + rowRank sh idx) % numel sh = rowRank sh idx := by
      rw [Nat.add_comm, Nat.add_mul_mod_self_right, Nat.mod_eq_of_lt h1]
    have e2 : (i * numel sh + rowRank sh idx) / numel sh = i := by
      rw [Nat.add_comm, Nat.add_mul_div_right _ _ (by omega), Nat.div_eq_of_lt h1, Nat.zero_add]
    rw [e1, e2, Nat.mod_eq_of_lt h.1, linIndexAt_rowRank h.2]

theorem boundedIndex_inBounds : ∀ {sh idx : List Nat}, InBounds sh idx →
    boundedIndex sh (toInts idx) = toInts idx
  | [], [], _ => rfl
  | [], _ :: _, h => h.elim
  | _ :: _, [], h => h.elim
  | n :: sh, i :: idx, h => by
    have h1 := h.1
    have h2 := boundedIndex_inBounds h.2
    unfold boundedIndex at h2 ⊢
    rw [toInts_cons, List.zipWith_cons_cons, h2]
    congr 1
    unfold boundedCoord
    rw [if_neg (by omega)]
    omega

mutual
theorem Ex.linDeref_eq {L : Layout} {sh idx : List Nat} (hb : InBounds sh idx) :
    ∀ e : Ex α, Fits sh e → FlatIn L sh e →
      e.linDeref (e.linBegin.add (rankIn L sh idx : Int)) = valueAt e idx
  | .arr c mem, _, h => by
    have h3 := h.2 idx (h.1 ▸ hb)
    rw [h.1] at h3
    simp only [Ex.linBegin, LIt.add, Ex.linDeref, valueAt, h.1, bcIndex_self hb, h3]
  | .scalar _, _, _ => rfl
  | .gen s g, _, h => by
    obtain ⟨rfl, rfl⟩ := h
    simp only [Ex.linBegin, LIt.add, Ex.linDeref, valueAt, bcIndex_self hb, rankIn]
    rw [show ((0 : Int) + (rowRank s idx : Int)).toNat = rowRank s idx by omega, linIndexAt_rowRank hb]
    exact congrArg g (boundedIndex_inBounds hb)
  | .fn f args, hf, h => by
    simp only [Ex.linBegin, LIt.add, Ex.linDeref, valueAt, Args.linDerefs_eq hb args hf h]
  | .bcast e s, hf, h => by
    have h1 := Ex.linDeref_eq hb e (Ex.fits_trans hf.1 e hf.2) h
    simp only [Ex.linBegin, Ex.linDeref, valueAt]
    rw [h1, Ex.value_bcIndex e idx hf.2 (by have := hf.1.1; have := hb.length_eq; omega)]
theorem Args.linDerefs_eq {L : Layout} {sh idx : List Nat} (hb : InBounds sh idx) :
    ∀ es : Args α, FitsAll sh es → FlatInAll L sh es →
      es.linDerefs (es.linBegins.adds (rankIn L sh idx : Int)) = valuesAt es idx
  | .nil, _, _ => rfl
  | .cons e es, hf, h => by
    simp only [Args.linBegins, LIts.adds, Args.linDerefs, valuesAt, Ex.linDeref_eq hb e hf.1 h.1,
      Args.linDerefs_eq hb es hf.2 h.2]
end

mutual
theorem Ex.linEnd_eq {L : Layout} {sh : List Nat} : ∀ e : Ex α, FlatIn L sh e →
    e.linEnd = e.linBegin.add (numel sh : Int)
  | .arr c _, h => by simp only [Ex.linEnd, Ex.linBegin, LIt.add, StridedArr.size_eq, h.1]
  | .scalar _, _ => rfl
  | .gen s _, h => by
    obtain ⟨rfl, rfl⟩ := h
    simp only [Ex.linEnd, Ex.linBegin, LIt.add, foldl_mul_eq, Nat.one_mul, Int.zero_add]
  | .fn _ args, h => by simp only [Ex.linEnd, Ex.linBegin, LIt.add, Args.linEnds_eq args h]
  | .bcast e _, h => by simp only [Ex.linEnd, Ex.linBegin]; exact Ex.linEnd_eq e h
theorem Args.linEnds_eq {L : Layout} {sh : List Nat} : ∀ es : Args α, FlatInAll L sh es →
    es.linEnds = es.linBegins.adds (numel sh : Int)
  | .nil, _ => rfl
  | .cons e es, h => by
    simp only [Args.linEnds, Args.linBegins, LIts.adds, Ex.linEnd_eq e h.1, Args.linEnds_eq es h.2]
end

/-- C81 (partial: arrays of the shape of the whole, stored in one order): `*(linear_begin() + k)` is the
`k`-th element in that order; `linear_end()` is `linear_begin()` plus the number of elements. -/
theorem C81_elements_partial (L : Layout) (sh : List Nat) (e : Ex α) (hf : Fits sh e) (hl : FlatIn L sh e) :
    (List.range (numel sh)).map (fun (k : Nat) => e.linDeref (e.linBegin.add k)) =
      (orderIndices L sh).map (valueAt e) ∧
    e.linEnd = e.linBegin.add (numel sh : Int) ∧
    (hasArray e = true → e.linEnd.diff e.linBegin = numel sh) := by
  refine ⟨map_orderIndices_rank fun idx hb => Ex.linDeref_eq hb e hf hl, Ex.linEnd_eq e hl, fun h => ?_⟩
  have := C81_distance_partial e h (numel sh) 0 (by omega)
  rw [Ex.linEnd_eq e hl]
  rw [LIt.add_zero] at this
  omega

/-- An array and a scalar, broadcast; a function of them and of another array. -/
def demoFn (L1 L2 : Layout) : Ex Nat :=
  .fn (fun vs => vs.foldl (fun a v => 10 * a + v) 0)
    (.cons (.bcast (.scalar 7) [2, 2]) (.cons (.arr (twoByTwo L1 0) fun p => p.toNat + 1)
      (.cons (.arr (twoByTwo L2 4) fun p => p.toNat + 1) .nil)))

theorem demo_fits : Fits [2, 2] (demoFn .column_major .column_major) ∧
    FlatIn .column_major [2, 2] (demoFn .column_major .column_major) := by
  have hb : BroadcastsTo [2, 2] [2, 2] := by decide
  refine ⟨⟨⟨hb, trivial⟩, ⟨container_wf _ _, hb⟩, ⟨container_wf _ _, hb⟩, trivial⟩,
    trivial, ⟨rfl, container_contig (.inr rfl) _ _⟩, ⟨rfl, container_contig (.inr rfl) _ _⟩, trivial⟩

example : (List.range 4).map (fun (k : Nat) => (demoFn .column_major .column_major).linDeref
      ((demoFn .column_major .column_major).linBegin.add k)) = [715, 726, 737, 748] ∧
    keyed (demoFn .column_major .column_major) = true := by decide

/-! ### Traversals -/

theorem linWalk_eq (e : Ex α) (h : keyed e = true) (N : Nat) : ∀ (m k fuel : Nat), k + m = N → m < fuel →
    e.linWalk (e.linBegin.add (N : Int)) fuel (e.linBegin.add (k : Int)) =
      (List.range' k m).map fun (i : Nat) => e.linDeref (e.linBegin.add i)
  | 0, k, fuel + 1, hk, _ => by
    unfold Ex.linWalk
    rw [if_pos ((C81_order_partial e h _ _).1.2 (by omega))]; rfl
  | m + 1, k, fuel + 1, hk, hf => by
    unfold Ex.linWalk
    rw [if_neg (fun hc => by have := (C81_order_partial e h _ _).1.1 hc; omega), LIt.next_eq, LIt.add_add,
      show (k : Int) + 1 = ((k + 1 : Nat) : Int) by omega,
      linWalk_eq e h N m (k + 1) fuel (by omega) (by omega)]
    rfl

theorem linWalkBack_eq (e : Ex α) (h : keyed e = true) : ∀ (m fuel : Nat), m < fuel →
    e.linWalkBack e.linBegin fuel (e.linBegin.add (m : Int)) =
      ((List.range m).map fun (i : Nat) => e.linDeref (e.linBegin.add i)).reverse
  | 0, fuel + 1, _ => by
    unfold Ex.linWalkBack
    have := (C81_order_partial e h 0 0).1.2 rfl
    rw [LIt.add_zero] at this
    rw [show ((0 : Nat) : Int) = 0 from rfl, LIt.add_zero, if_pos this]; rfl
  | m + 1, fuel + 1, hf => by
    unfold Ex.linWalkBack
    have hne : ¬ ((e.linBegin.add ((m + 1 : Nat) : Int)).equal e.linBegin = true) := by
      intro hc
      rw [← LIt.add_zero e.linBegin, LIt.add_add] at hc
      have := (C81_order_partial e h _ _).1.1 hc
      omega
    rw [if_neg hne, LIt.prev_eq, LIt.add_add, show ((m + 1 : Nat) : Int) + -1 = (m : Int) by omega,
      linWalkBack_eq e h m fuel (by omega), List.range_succ]
    simp

/-- C81 (partial, as `C81_order_partial` and `C81_elements_partial`): going from `linear_begin()` to
`linear_end()` reads every element once, in the order of storage, and the reverse iterators read them
backwards. -/
theorem C81_traversal_partial (L : Layout) (sh : List Nat) (e : Ex α) (hf : Fits sh e) (hl : FlatIn L sh e)
    (hk : keyed e = true) (fuel : Nat) (hfuel : numel sh < fuel) :
    e.linWalk e.linEnd fuel e.linBegin = (orderIndices L sh).map (valueAt e) ∧
    e.linWalkBack e.linBegin fuel e.linEnd = ((orderIndices L sh).map (valueAt e)).reverse := by
  obtain ⟨h1, h2, -⟩ := C81_elements_partial L sh e hf hl
  constructor
  · have := linWalk_eq e hk (numel sh) (numel sh) 0 fuel (by omega) hfuel
    rw [← h2, show ((0 : Nat) : Int) = 0 from rfl, LIt.add_zero, ← List.range_eq_range'] at this
    rw [this, h1]
  · have := linWalkBack_eq e hk (numel sh) fuel hfuel
    rw [← h2] at this
    rw [this, h1]

example : (demoFn .column_major .column_major).linWalk (demoFn .column_major .column_major).linEnd 5
    (demoFn .column_major .column_major).linBegin = [715, 726, 737, 748] := by decide

/-- Operands stored in different orders are read at different indices: with `a` row-major and `b`
column-major, the second value read combines `a(0, 1)` with `b(1, 0)`, which no index of the function has. -/
theorem C81_mixed_layout_wrong :
    (demoFn .row_major .column_major).linWalk (demoFn .row_major .column_major).linEnd 5
      (demoFn .row_major .column_major).linBegin = [715, 726, 737, 748] ∧
    (orderIndices .row_major [2, 2]).map (valueAt (demoFn .row_major .column_major)) = [715, 727, 736, 748] := by
  decide

/-- An operand that is broadcast by the function is stepped like the others: with `b` of shape `[2]`
first, two of the four elements are visited; with `b` second, four values are read, the third from
cells after the end of `b` (here the storage of another array). -/
theorem C81_broadcast_operand_wrong :
    let b : Ex Nat := .arr (StridedArr.container .row_major [2] 0) fun p => [1, 2, 98, 99].getD p.toNat 0
    let a : Ex Nat := .arr (twoByTwo .row_major 0) fun p => 100 * (p.toNat + 1)
    let f : Ex Nat := .fn List.sum (.cons b (.cons a .nil))
    let g : Ex Nat := .fn List.sum (.cons a (.cons b .nil))
    (orderIndices .row_major [2, 2]).map (valueAt f) = [101, 202, 301, 402] ∧
    f.linWalk f.linEnd 5 f.linBegin = [101, 202] ∧
    g.linWalk g.linEnd 5 g.linBegin = [101, 202, 398, 499] := by decide

/-- The linear iterators of `broadcast(b, {2, 2})` are those of `b`: two of four elements. -/
theorem C81_broadcast_wrong :
    let b : Ex Nat := .arr (StridedArr.container .row_major [2] 0) fun p => p.toNat
    let e : Ex Nat := .bcast b [2, 2]
    (orderIndices .row_major [2, 2]).map (valueAt e) = [0, 1, 0, 1] ∧
    e.linWalk e.linEnd 5 e.linBegin = [0, 1] := by decide

/-! ### The assignment loop -/

theorem linearLoop_eq (d : Int) (it : LIt) (n : Nat) : linearLoop d it n = linearLoopPar d it n := by
  induction n generalizing d it with
  | zero => rfl
  | succ n ih =>
    unfold linearLoop
    rw [ih, LIt.next_eq]
    unfold linearLoopPar
    rw [List.range_succ_eq_map, List.map_cons, List.map_map]
    simp only [Function.comp_def, LIt.add_add]
    congr 1
    · simp [LIt.add_zero]
    · apply List.map_congr_left
      intro i _
      rw [show d + 1 + (i : Int) = d + ((i + 1 : Nat) : Int) by omega,
        show 1 + (i : Int) = ((i + 1 : Nat) : Int) by omega]

mutual
theorem Ex.linDeref_dataElement (i : Nat) : ∀ e : Ex α, NoGen e →
    e.linDeref (e.linBegin.add i) = e.dataElement i
  | .arr c mem, _ => rfl
  | .scalar _, _ => rfl
  | .gen _ _, h => h.elim
  | .fn f args, h => by
    simp only [Ex.linBegin, LIt.add, Ex.linDeref, Ex.dataElement, Args.linDerefs_dataElements i args h]
  | .bcast e _, h => by simp only [Ex.linBegin, Ex.linDeref, Ex.dataElement]; exact Ex.linDeref_dataElement i e h
theorem Args.linDerefs_dataElements (i : Nat) : ∀ es : Args α, NoGenAll es →
    es.linDerefs (es.linBegins.adds i) = es.dataElements i
  | .nil, _ => rfl
  | .cons e es, h => by
    simp only [Args.linBegins, LIts.adds, Args.linDerefs, Args.dataElements,
      Ex.linDeref_dataElement i e h.1, Args.linDerefs_dataElements i es h.2]
end

/-- C81: the iterator loop of an assignment, sequential or parallel, reads from and writes to where
`data_element(i)` does, for any expression without generators. -/
theorem C81_assign_loop (d : StridedArr) (e : MEx β) (hg : NoGen e) :
    (linearLoop d.off e.linBegin d.size).map (fun w => [(w.1, e.linDeref w.2)]) = linearTrace d e ∧
    linearLoop d.off e.linBegin d.size = linearLoopPar d.off e.linBegin d.size := by
  refine ⟨?_, linearLoop_eq _ _ _⟩
  rw [linearLoop_eq]
  unfold linearLoopPar linearTrace
  rw [List.map_map]
  apply List.map_congr_left
  intro i _
  simp only [Function.comp_def, Ex.linDeref_dataElement i e hg]

/-- C81: whenever `has_linear_assign` accepts the strides of a contiguous destination, the iterator loop
pairs every element of the destination with the value of the expression at its index — operands stored in different orders and
broadcast operands are refused. -/
theorem C81_linear_assign (L : Layout) (hL : L = .row_major ∨ L = .column_major) (d : StridedArr)
    (e : MEx β) (hd : d.WF) (hC : Contig L d) (hf : Fits d.shape e)
    (hlin : e.hasLinearAssign d.strides = true) :
    (linearLoop d.off e.linBegin d.size).map (fun w => (w.1, e.linDeref w.2)) =
      (orderIndices L d.shape).map fun idx => (addr d idx, valueAt e idx) := by
  obtain ⟨hg, hst⟩ := Ex.hasLinear_arrs e hlin
  rw [linearLoop_eq, StridedArr.size_eq]
  by_cases h0 : numel d.shape = 0
  · rw [h0]
    have : orderIndices L d.shape = [] := by
      apply List.eq_nil_of_length_eq_zero
      rw [length_orderIndices, h0]
    rw [this]; rfl
  unfold linearLoopPar
  rw [List.map_map]
  refine map_orderIndices_rank fun idx hb => ?_
  simp only [Function.comp_def]
  rw [Ex.linDeref_dataElement _ e hg, Ex.dataElement_eq hb e hf hg]
  · unfold addr; rw [hC idx hb]
  · intro c hc
    obtain ⟨hcwf, hcb⟩ := Ex.fits_arrs e hf c hc
    have hsh := shape_of_strides (contig_distinct hL hC) (by omega) hd hcwf hcb (hst c hc)
    refine ⟨hsh, fun idx hb => ?_⟩
    rw [hst c hc, hsh]
    exact hC idx (hsh ▸ hb)

example : let d := twoByTwo .row_major 8
    let e : MEx Nat := pwFn List.sum (.cons (rdArr (twoByTwo .row_major 0)) (.cons (.scalar fun _ => 5) .nil))
    Contig .row_major d ∧ e.hasLinearAssign d.strides = true ∧
    ((linearLoop d.off e.linBegin d.size).map fun w => (w.1, e.linDeref w.2 fun p => p.toNat)) =
      [(8, 5), (9, 6), (10, 7), (11, 8)] := ⟨container_contig (.inl rfl) _ _, by decide, by decide⟩

/-! ### Strided views -/

/-- The reverse linear iterators of a non-empty `xstrided_view` start before its first element and walk
away from it; they never meet `linear_rend()`. -/
theorem C81_strided_reverse_wrong (c : StridedArr) (mem : Int → α) (h : 0 < c.size) (fuel : Nat) :
    stridedReverse c mem fuel = (List.range fuel).map fun (i : Nat) => mem (c.off - 1 - i) := by
  have key : ∀ (fuel : Nat) (p : Int), p ≤ c.off →
      (Ex.arr c mem).linWalkBack (.ptr (c.off + c.size)) fuel (.ptr p) =
        (List.range fuel).map fun (i : Nat) => mem (p - 1 - i) := by
    intro fuel
    induction fuel with
    | zero => intro p _; rfl
    | succ n ih =>
      intro p hp
      unfold Ex.linWalkBack
      have hne : ¬ (LIt.equal (.ptr p) (.ptr (c.off + c.size)) = true) := by
        simp only [LIt.equal, beq_iff_eq]; omega
      rw [if_neg hne, List.range_succ_eq_map, List.map_cons, List.map_map]
      show mem (p - 1) :: (Ex.arr c mem).linWalkBack _ n (.ptr (p - 1)) = _
      rw [ih (p - 1) (by omega)]
      congr 1
      · simp
      · apply List.map_congr_left
        intro i _
        simp only [Function.comp_def]
        congr 1
        push_cast
        omega
  exact key fuel c.off (le_refl _)

example : 0 < (twoByTwo .row_major 3).size ∧
    stridedReverse (twoByTwo .row_major 3) (fun p => p) 5 = [2, 1, 0, -1, -2] := by decide

end Xt
