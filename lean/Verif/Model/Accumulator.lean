import Verif.Model.Reducer
import Verif.Model.Strides
/-!
# Model of `reducers/xaccumulator.hpp`

The result is a container whose storage starts as a copy of the argument's elements (converted to
the result type) in the result's layout; `data` is that storage.
-/

namespace Xt

variable {β : Type}

/-- `std::min_element` over a range that is not empty. -/
def minStride : List Int → Int
  | [] => 0
  | [s] => s
  | s :: t :: l => let m := minStride (t :: l); if m < s then m else s

/-- Inner loop of `accumulator_init_with_f` — reducers/xaccumulator.hpp:207-211; `none`: outside the
storage. -/
def accInitInner (g : β → β) (s : Nat) : Nat → Nat → List β → Option (List β)
  | 0, _, res => some res
  | k + 1, pos, res =>
    if pos < res.length then accInitInner g s k (pos + s) (res.modify pos g) else none

/-- Outer loop of `accumulator_init_with_f` — reducers/xaccumulator.hpp:204-212: `k` iterations left, `i`
the loop variable. -/
def accInitOuter (g : β → β) (so si inner : Nat) : Nat → Nat → List β → Option (List β)
  | 0, _, res => some res
  | k + 1, i, res =>
    (accInitInner g si inner (i * so) res).bind fun r => accInitOuter g so si inner k (i + 1) r

/-- `accumulator_init_with_f` — reducers/xaccumulator.hpp:160-213; `l` is `e.layout()`. -/
def accInit (l : Layout) (sh : List Nat) (strides : List Int) (g : β → β) (axis : Nat) (res : List β) :
    Option (List β) :=
  let outerSize := (sh.take axis).foldl (· * ·) 1
  let innerSize := (sh.drop (axis + 1)).foldl (· * ·) 1
  let outerStride := (if axis = 0 then 1 else minStride (strides.take axis)).toNat
  let innerStride := (if axis + 1 = strides.length then 1 else minStride (strides.drop (axis + 1))).toNat
  if l = .column_major then accInitOuter g innerStride outerStride outerSize innerSize 0 res
  else accInitOuter g outerStride innerStride innerSize outerSize 0 res

/-- Inner loop of `accumulator_impl` — reducers/xaccumulator.hpp:284-292 (`outer_stride` is always 1):
new `pos` and storage. -/
def accInner (f : β → β → β) (s : Nat) : Nat → Nat → List β → Option (Nat × List β)
  | 0, pos, res => some (pos, res)
  | k + 1, pos, res =>
    match res[pos]?, res[pos + s]? with
    | some a, some b => accInner f s k (pos + 1) (res.set (pos + s) (f a b))
    | _, _ => none

/-- Outer loop of `accumulator_impl` — reducers/xaccumulator.hpp:282-294. -/
def accOuter (f : β → β → β) (s inner : Nat) : Nat → Nat → List β → Option (List β)
  | 0, _, res => some res
  | k + 1, pos, res =>
    (accInner f s inner pos res).bind fun r => accOuter f s inner k (r.1 + s) r.2

/-- Sizes of the two loops (`outer_loop_size`, `inner_loop_size` before the subtraction) —
reducers/xaccumulator.hpp:242-271; `SL` is the compile-time layout of the result. -/
def accSizes (SL : Layout) (sh : List Nat) (axis : Nat) : Nat × Nat :=
  let init := if sh.getD axis 0 ≠ 1 then 1 else 0
  if SL = .row_major then ((sh.take axis).foldl (· * ·) init, (sh.drop axis).foldl (· * ·) 1)
  else ((sh.drop (axis + 1)).foldl (· * ·) 1, (sh.take (axis + 1)).foldl (· * ·) init)

/-- `accumulator_impl(f, e, axis)` — reducers/xaccumulator.hpp:215-297: storage of the result.  `SL`, `l` are
the compile-time and run-time layouts of the result, `g` the initialisation function (`none` for
the identity). -/
def accumulateAxis (SL l : Layout) (sh : List Nat) (data : List β) (f : β → β → β) (g : Option (β → β))
    (axis : Nat) : Res (List β) :=
  if axis ≥ sh.length then .throws
  else if sh.getD axis 0 = 0 then .ok data
  else
    let strides := (computeStrides SL l sh).1
    let s := (strides.getD axis 0).toNat
    let sizes := accSizes SL sh axis
    let inner := ((sizes.2 : Int) - (s : Int)) % 2 ^ 64
    let start := match g with
      | none => some data
      | some g => accInit l sh strides g axis data
    match start.bind fun res => accOuter f s inner.toNat sizes.1 0 res with
    | none => .ub
    | some res => .ok res

/-- `accumulate(f, e, axis)` — reducers/xaccumulator.hpp:363-367. -/
def accumulate (SL l : Layout) (sh : List Nat) (data : List β) (f : β → β → β) (g : Option (β → β))
    (axis : Int) : Res (List β) :=
  accumulateAxis SL l sh data f g (normalizeAxis sh.length axis)

/-- Loop of the flat form — reducers/xaccumulator.hpp:323-327: `prev` is `storage[idx]`. -/
def accFlatLoop (f : β → β → β) : β → List β → List β
  | _, [] => []
  | prev, v :: vs => f prev v :: accFlatLoop f (f prev v) vs

/-- `accumulator_impl(f, e)` — reducers/xaccumulator.hpp:299-330: storage of the result; `vals` are the values
met by the row-major iteration over the argument. -/
def accumulateFlat (f : β → β → β) (g : Option (β → β)) : List β → List β
  | [] => []
  | v :: vs =>
    let v0 := match g with
      | none => v
      | some g => g v
    v0 :: accFlatLoop f v0 vs

end Xt
