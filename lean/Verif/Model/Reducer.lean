import Verif.Model.Expr
/-!
# Model of `reducers/xreducer.hpp`: lazy reductions

`e` is the reduced expression and `sh` the result of its `shape()`.
-/

namespace Xt

variable {α β : Type}

/-- `xreducer_functors` — reducers/xreducer.hpp:617-680. -/
structure RedFns (α β : Type) where
  reduce : β → α → β
  init : β
  merge : β → β → β

/-- `xreducer`: expression, its shape, functors, normalised axes, `keep_dims` and the
`initial` option — reducers/xreducer.hpp:805-1083. -/
structure Reducer (α β : Type) where
  e : Ex α
  sh : List Nat
  fns : RedFns α β
  axes : List Nat
  keep : Bool
  initial : Option β

/-- `normalize_axis(dim, axis)` — utils/xutils.hpp:376-381; the sum is taken modulo 2^64. -/
def normalizeAxis (dim : Nat) (axis : Int) : Nat :=
  if axis < 0 then (((dim : Int) + axis) % 2 ^ 64).toNat else axis.toNat

/-- `std::is_sorted(axes, std::less)`. -/
def isSortedLess : List Nat → Bool
  | a :: b :: l => !decide (b < a) && isSortedLess (b :: l)
  | _ => true

/-- `std::adjacent_find(axes) != end`. -/
def adjacentEq : List Nat → Bool
  | a :: b :: l => a == b || adjacentEq (b :: l)
  | _ => false

/-- The checks of the constructor — reducers/xreducer.hpp:1426-1440 (and 337-351 for
`reduce_immediate`); `dimension() - 1` is unsigned.  `true`: no exception. -/
def axesOk (dim : Nat) (axes : List Nat) : Bool :=
  isSortedLess axes && !adjacentEq axes &&
    !(axes.length ≠ 0 && decide (axes.getLastD 0 > (if dim = 0 then 2 ^ 64 - 1 else dim - 1)))

/-- Loop of `shape_and_mapping_computation` — reducers/xreducer.hpp:1325-1356: `i` is the axis
reached, `xs` the axes still to exclude. -/
def shapeMappingLoop : Nat → List Nat → List Nat → List Nat × List Nat
  | _, [], _ => ([], [])
  | i, n :: rest, [] => (n :: rest, List.range' i (rest.length + 1))
  | i, n :: rest, x :: xs =>
    if i ≠ x then
      let r := shapeMappingLoop (i + 1) rest (x :: xs)
      (n :: r.1, i :: r.2)
    else shapeMappingLoop (i + 1) rest xs

/-- `m_shape` and `m_dim_mapping` — reducers/xreducer.hpp:1325-1375, 1442-1461. -/
def redShapeMapping (sh axes : List Nat) (keep : Bool) : List Nat × List Nat :=
  if keep then
    ((List.range sh.length).map fun i => if axes.contains i then 1 else sh.getD i 0,
      List.range sh.length)
  else shapeMappingLoop 0 sh axes

/-- Constructor — reducers/xreducer.hpp:1406-1462.  `none`: an exception.  Without `keep_dims` the
sequences are created with `dimension() - axes.size()` (unsigned) elements, which cannot be allocated
when there are more axes than dimensions. -/
def Reducer.construct (r : Reducer α β) : Option (Reducer α β) :=
  if !r.keep && decide (r.axes.length > r.sh.length) then none
  else if axesOk r.sh.length r.axes then some r else none

/-- `shape()`. -/
def Reducer.shape (r : Reducer α β) : List Nat := (redShapeMapping r.sh r.axes r.keep).1

/-- `m_dim_mapping`. -/
def Reducer.mapping (r : Reducer α β) : List Nat := (redShapeMapping r.sh r.axes r.keep).2

/-- `initial_value()` — reducers/xreducer.hpp:1772-1776. -/
def Reducer.initialValue (r : Reducer α β) : β := r.initial.getD r.fns.init

/-- Loop `for (i = 1; i != size; ++i)` of `aggregate_impl` — reducers/xreducer.hpp:1811-1825: `k`
iterations left, `f` evaluates at the current position. -/
def aggLoop {σ : Type} (ops : StepOps σ) (index : Nat) (f : β → σ → β × σ) :
    Nat → β → σ → β × σ
  | 0, res, st => (res, st)
  | k + 1, res, st =>
    let r := f res (ops.step st index 1)
    aggLoop ops index f k r.1 r.2

/-- `aggregate_impl(dim, false_type)` — reducers/xreducer.hpp:1802-1828; the argument holds
`axes[dim]` and the following axes.  The stepper is a mutable member, so the state it is left in is
returned too.  Extents are positive here (`aggregate` tests `size()`). -/
def aggImpl {σ : Type} (ops : StepOps σ) (deref : σ → α) (F : RedFns α β) (sh : List Nat) :
    List Nat → σ → β × σ
  | [], st => (F.init, st)
  | [a], st =>
    let r := aggLoop ops a (fun res st => (F.reduce res (deref st), st)) (sh.getD a 0 - 1)
      (F.reduce F.init (deref st)) st
    (r.1, ops.reset r.2 a)
  | a :: b :: axes, st =>
    let r0 := aggImpl ops deref F sh (b :: axes) st
    let r := aggLoop ops a
      (fun res st => let q := aggImpl ops deref F sh (b :: axes) st; (F.merge res q.1, q.2))
      (sh.getD a 0 - 1) r0.1 r0.2
    (r.1, ops.reset r.2 a)

/-- `aggregate_impl(dim, true_type)` — reducers/xreducer.hpp:1831-1868.  The first argument is
`dimension() + 1 - dim`; `dflt` is `reference res = {}`. -/
def aggKeep {σ : Type} (ops : StepOps σ) (deref : σ → α) (F : RedFns α β) (sh axes : List Nat)
    (dflt : β) : Nat → σ → β × σ
  | 0, st => (dflt, st)
  | k + 1, st =>
    let dim := sh.length - k
    if axes.contains dim then
      let r :=
        if axes.idxOf dim ≠ axes.length - 1 ∧ sh.getD dim 0 ≠ 0 then
          let r0 := aggKeep ops deref F sh axes dflt k st
          aggLoop ops dim
            (fun res st => let q := aggKeep ops deref F sh axes dflt k st; (F.merge res q.1, q.2))
            (sh.getD dim 0 - 1) r0.1 r0.2
        else
          aggLoop ops dim (fun res st => (F.reduce res (deref st), st)) (sh.getD dim 0 - 1)
            (F.reduce F.init (deref st)) st
      (r.1, ops.reset r.2 dim)
    else if dim < sh.length then aggKeep ops deref F sh axes dflt k st
    else (dflt, st)

/-- `operator*` of `xreducer_stepper`: `aggregate(0)` — reducers/xreducer.hpp:1684-1688, 1779-1799. -/
def Reducer.deref (r : Reducer α β) (dflt : β) (st : r.e.State) : β × r.e.State :=
  let ops := r.e.ops r.sh.length
  if r.sh.foldl (· * ·) 1 = 0 then (r.initialValue, st)
  else if r.sh.isEmpty || r.axes.length == 0 then
    (r.fns.reduce r.initialValue (r.e.deref st), st)
  else
    let q := if r.keep then aggKeep ops r.e.deref r.fns r.sh r.axes dflt (r.sh.length + 1) st
      else aggImpl ops r.e.deref r.fns r.sh r.axes st
    match r.initial with
    | some v => (r.fns.merge v q.1, q.2)
    | none => q

/-- `xreducer_stepper` — reducers/xreducer.hpp:1667-1769; `offset` is `m_offset`. -/
def Reducer.ops (r : Reducer α β) (offset : Nat) : StepOps r.e.State :=
  let s := r.e.ops r.sh.length
  let kept (dim : Nat) : Bool := !(r.keep && r.axes.contains (dim - offset))
  { step := fun st dim n => if dim ≥ offset then s.step st (r.mapping.getD (dim - offset) 0) n else st
    stepBack := fun st dim n =>
      if dim ≥ offset then s.stepBack st (r.mapping.getD (dim - offset) 0) n else st
    reset := fun st dim =>
      if dim ≥ offset then
        if kept dim then s.reset st (r.mapping.getD (dim - offset) 0) else st
      else st
    resetBack := fun st dim =>
      if dim ≥ offset then
        if kept dim then s.resetBack st (r.mapping.getD (dim - offset) 0) else st
      else st
    toBegin := fun st => s.toBegin st
    toEnd := fun st l => s.toEnd st l }

/-- `stepper_begin(shape)` — reducers/xreducer.hpp:1620-1626, 1871-1874. -/
def Reducer.stBegin (r : Reducer α β) : r.e.State := r.e.stBegin

/-- `stepper_end(shape, l)` — reducers/xreducer.hpp:1628-1635, 1667-1681: the constructor calls `to_end(l)`. -/
def Reducer.stEnd (r : Reducer α β) (l : Layout) : r.e.State :=
  (r.e.ops r.sh.length).toEnd r.e.stBegin l

/-- `for (it = begin<L>(sh); it != end<L>(sh); ++it) *it`, at most `fuel` dereferences; `*it` moves
the mutable substepper. -/
def Reducer.walk (r : Reducer α β) (dflt : β) (L : Layout) (sh : List Nat) (last : XIter r.e.State) :
    Nat → XIter r.e.State → List β
  | 0, _ => []
  | fuel + 1, it =>
    if it.equal last then [] else
      let q := r.deref dflt it.st
      q.1 :: r.walk dflt L sh last fuel
        (XIter.inc (r.ops (sh.length - r.shape.length)) L sh { it with st := q.2 })

/-- Forward iteration over the reducer under the shape `sh`. -/
def Reducer.values (r : Reducer α β) (dflt : β) (L : Layout) (sh : List Nat) : List β :=
  r.walk dflt L sh (XIter.mkEnd (r.stEnd L) L sh) (sh.foldl (· * ·) 1 + 1) (XIter.mkBegin r.stBegin sh)

/-- `for (it = rbegin<L>(sh); it != rend<L>(sh); ++it) *it` over the reducer: each dereference
decrements a copy. -/
def Reducer.rvalues (r : Reducer α β) (dflt : β) (L : Layout) (sh : List Nat) : List β :=
  (XIter.walkBack (r.ops (sh.length - r.shape.length)) L sh (XIter.mkBegin r.stBegin sh)
    (sh.foldl (· * ·) 1 + 1) (XIter.mkEnd (r.stEnd L) L sh)).map fun st => (r.deref dflt st).1

/-- Loop of `element(first, last)` — reducers/xreducer.hpp:1550-1576. -/
def stepLoop {σ : Type} (ops : StepOps σ) : Nat → List Nat → σ → σ
  | _, [], st => st
  | dim, i :: is, st => stepLoop ops (dim + 1) is (ops.step st dim i)

/-- `element(first, last)` — reducers/xreducer.hpp:1550-1576: extra leading indices are dropped,
missing ones are steps by 0; no step at all for an empty index. -/
def Reducer.element (r : Reducer α β) (dflt : β) (idx : List Nat) : β :=
  let st := r.stBegin
  let full := List.replicate (r.shape.length - idx.length) 0 ++ idx.drop (idx.length - r.shape.length)
  (r.deref dflt (if idx.isEmpty then st else stepLoop (r.ops 0) 0 full st)).1

end Xt
