import Verif.Model.Fixed
import Verif.Model.Broadcast
import Verif.Model.Reducer
import Verif.Model.View
/-!
# Model of the shape types of expressions

core/xshape.hpp, core/xfunction.hpp, reducers/xreducer.hpp, views/xview.hpp, views/xbroadcast.hpp (under
/repo/include/xtensor).  What the compiler knows about a shape is its type: nothing (`svector`, `std::vector`), the number of
axes (`std::array`), or all of it (`fixed_shape`).  The value types of the sequences are left out.
-/

namespace Xt

/-- The type of a shape, or of a list of axes: `dynamic_shape<T>`, `std::array<T, n>`, `fixed_shape<s...>`. -/
inductive ShapeTy
  | dyn
  | arr (n : Nat)
  | fixed (s : List Nat)
  deriving DecidableEq

/-- `is_fixed` — core/xshape.hpp:369-377. -/
def ShapeTy.isFixed : ShapeTy → Bool
  | .fixed _ => true
  | _ => false

/-- `is_scalar_shape`: also the type of the shape of an `xscalar` — core/xshape.hpp:379-389. -/
def ShapeTy.isScalar (t : ShapeTy) : Bool := t == .arr 0

/-- `std::tuple_size`, used by `max_array_size` — core/xshape.hpp:283-297; not used for dynamic shapes. -/
def ShapeTy.size : ShapeTy → Nat
  | .dyn => 0
  | .arr n => n
  | .fixed s => s.length

/-- Argument of `promote_fixed`: `none` is `std::array<T, 0>`, see `filterScalar` — core/xshape.hpp:423-441. -/
def ShapeTy.operand : ShapeTy → Option (List Nat)
  | .fixed s => some s
  | _ => none

/-- `promote_shape_t<S...>`, that is `promote_index` — core/xshape.hpp:391-421, 466-500.  `none`: a `static_assert` fails. -/
def promoteTy (ts : List ShapeTy) : Option ShapeTy :=
  if ts.any ShapeTy.isFixed && ts.all (fun (t : ShapeTy) => t.isFixed || t.isScalar) then
    (fixedFunction (ts.map ShapeTy.operand)).map fun r => .fixed r.1
  else if ts.all (fun (t : ShapeTy) => t != .dyn) then some (.arr ((ts.map ShapeTy.size).foldr max 0))
  else some .dyn

/-- `fixed_xreducer_shape_type<fixed_shape<I...>, fixed_shape<J...>>` for a non-empty `I` — reducers/xreducer.hpp:1146-1171, 1226-1234:
the extents of the axes that are not in `J`; the recursion runs from the last axis to the first. -/
def fixedReducerTy (I J : List Nat) : List Nat :=
  ((List.range I.length).filter fun (z : Nat) => !J.contains z).map fun (z : Nat) => packAt I z

/-- `xreducer_shape_type<ST, X, keep_dims>` for the shape type of the expression and the type of the axes —
reducers/xreducer.hpp:1236-1320.  `none`: not a type (`std::array` of negative size; unbounded recursion for `fixed_shape<>`). -/
def reducerTy (t ax : ShapeTy) (keep : Bool) : Option ShapeTy :=
  match t, ax, keep with
  | .arr n, .arr _, true => some (.arr n)
  | .arr n, .arr m, false => if m ≤ n then some (.arr (n - m)) else none
  | .fixed I, .arr m, false =>
    if I.length = m then some (.fixed []) else if m ≤ I.length then some (.arr (I.length - m)) else none
  | .fixed I, .arr m, true => if I.length = m then some (.fixed (List.replicate m 1)) else some (.arr I.length)
  | .fixed I, .fixed J, _ => if I = [] then none else some (.fixed (fixedReducerTy I J))
  | t, ax, _ => promoteTy [t, ax]

/-- `xview_shape_type` — views/xview.hpp:841-858. -/
def viewTy (t : ShapeTy) (S : List Sl) : ShapeTy :=
  match t with
  | .dyn => .dyn
  | .arr n => .arr (n - integralCount S + newaxisCount S)
  | .fixed I => .arr (I.length - integralCount S + newaxisCount S)

/-- `filter_fixed_shape` — core/xshape.hpp:550-578. -/
def ShapeTy.unfix : ShapeTy → ShapeTy
  | .fixed s => .arr s.length
  | t => t

/-- A sequence made by `xtl::make_sequence<S>(l.size(), 0)` into which `l` is written.  A `std::array` keeps its size; a
`fixed_shape` is constant (core/xshape.hpp:67-92) and nothing is written.  Writing past the end of an array is undefined
(left out here; `C101_shape_partial` shows that there is always room). -/
def ShapeTy.filled (t : ShapeTy) (l : List Nat) : List Nat :=
  match t with
  | .dyn => l
  | .arr n => l ++ List.replicate (n - l.length) 0
  | .fixed s => s

/-- `m_shape` of an `xreducer` whose shape has type `t`, and the shape of the result of `reduce_immediate` —
reducers/xreducer.hpp:192-240, 1322-1385, 1410-1415, 1442-1461. -/
def reducerShapeAs (t : ShapeTy) (sh axes : List Nat) (keep : Bool) : List Nat :=
  t.filled (redShapeMapping sh axes keep).1

/-- `m_dim_mapping` of an `xreducer` whose shape has type `t` — reducers/xreducer.hpp:775-786, 1322-1385, 1416-1419, 1442-1461: with
`keep_dims` the whole sequence is numbered; for a fixed shape it keeps the zeros it was made with. -/
def reducerMappingAs (t : ShapeTy) (sh axes : List Nat) (keep : Bool) : List Nat :=
  match t with
  | .fixed s => List.replicate s.length 0
  | .arr n => if keep then List.range n else t.filled (redShapeMapping sh axes keep).2
  | .dyn => (redShapeMapping sh axes keep).2

variable {α β : Type}

/-- `step` of `xreducer_stepper` for `element`, with the mapping a shape of type `t` leads to — reducers/xreducer.hpp:1690-1710;
see `Reducer.ops`. -/
def Reducer.stepAs (r : Reducer α β) (m : List Nat) : StepOps r.e.State :=
  { r.ops 0 with
    step := fun st dim n => (r.e.ops r.sh.length).step st (m.getD dim 0) n }

/-- `element(first, last)` of an `xreducer` whose shape has type `t` — reducers/xreducer.hpp:1550-1576; see `Reducer.element`. -/
def Reducer.elementAs (r : Reducer α β) (t : ShapeTy) (dflt : β) (idx : List Nat) : β :=
  let sh := reducerShapeAs t r.sh r.axes r.keep
  let full := List.replicate (sh.length - idx.length) 0 ++ idx.drop (idx.length - sh.length)
  (r.deref dflt (if idx.isEmpty then r.stBegin else
    stepLoop (r.stepAs (reducerMappingAs t r.sh r.axes r.keep)) 0 full r.stBegin)).1

/-- Expressions as far as their shapes and the types of these are concerned: an operand (a number has type `std::array<T, 0>`), an
`xfunction`, an `xreducer` with its axes, an `xview` and an `xbroadcast`. -/
inductive TyExpr
  | leaf (t : ShapeTy) (sh : List Nat)
  | fn (args : List TyExpr)
  | reduce (e : TyExpr) (ax : ShapeTy) (axes : List Nat) (keep : Bool)
  | view (e : TyExpr) (us : List USlice)
  | bcast (e : TyExpr) (ax : ShapeTy) (sh : List Nat)

/-- Type and value of `shape()` of an `xfunction` from those of its operands — core/xfunction.hpp:62-68, 577-600: a fixed shape is
that of the type, another is computed by broadcasting into a sequence of that type.  The operands of operands are not visited again:
by `C04_order_and_grouping_irrelevant` that makes no difference. -/
def fnShapeAs (rs : List (ShapeTy × List Nat)) : Option (ShapeTy × List Nat) :=
  match promoteTy (rs.map Prod.fst) with
  | none => none
  | some (.fixed s) => some (.fixed s, s)
  | some t =>
    let f := ShExpr.fn (rs.map fun (r : ShapeTy × List Nat) => ShExpr.leaf r.2)
    let n := match t with
      | .arr n => n
      | _ => f.dim
    (f.bc (uninitializedShape n)).map fun q => (t, q.1)

/-- Type and value of `shape()` of an `xreducer`, and of the result of `reduce_immediate` — reducers/xreducer.hpp:746-752, 1406-1462. -/
def reduceShapeAs (r : ShapeTy × List Nat) (ax : ShapeTy) (axes : List Nat) (keep : Bool) : Option (ShapeTy × List Nat) :=
  match reducerTy r.1 ax keep with
  | none => none
  | some t =>
    if (keep || decide (axes.length ≤ r.2.length)) && axesOk r.2.length axes then
      some (t, reducerShapeAs t r.2 axes keep)
    else none

/-- Type and value of `shape()` of an `xview` — views/xview.hpp:1729-1746, 1774-1831. -/
def viewShapeAs (r : ShapeTy × List Nat) (us : List USlice) : Option (ShapeTy × List Nat) :=
  match makeView r.2 us with
  | .ok S => some (viewTy r.1 S, (viewTy r.1 S).filled ((viewShape r.2 S).map Int.toNat))
  | _ => none

/-- Type and value of `shape()` of an `xbroadcast` — views/xbroadcast.hpp:76-82, 254-262, 284-300.  Refused for a fixed shape, which cannot be
written to. -/
def bcastShapeAs (r : ShapeTy × List Nat) (ax : ShapeTy) (sh : List Nat) : Option (ShapeTy × List Nat) :=
  match promoteTy [r.1, ax.unfix] with
  | none => none
  | some (.fixed _) => none
  | some t => if sh.length < r.2.length then none else (broadcastShape r.2 (t.filled sh)).map fun q => (t, q.1)

mutual
/-- Type and value of `shape()` of an expression; `none`: it does not compile, or an exception is thrown. -/
def TyExpr.run : TyExpr → Option (ShapeTy × List Nat)
  | .leaf t sh => some (t, sh)
  | .fn args =>
    match TyExpr.runs args with
    | none => none
    | some rs => fnShapeAs rs
  | .reduce e ax axes keep =>
    match e.run with
    | none => none
    | some r => reduceShapeAs r ax axes keep
  | .view e us =>
    match e.run with
    | none => none
    | some r => viewShapeAs r us
  | .bcast e ax sh =>
    match e.run with
    | none => none
    | some r => bcastShapeAs r ax sh
/-- Operands of a function. -/
def TyExpr.runs : List TyExpr → Option (List (ShapeTy × List Nat))
  | [] => some []
  | e :: es =>
    match e.run, TyExpr.runs es with
    | some r, some rs => some (r :: rs)
    | _, _ => none
end

mutual
/-- The same expression when no shape is known to the compiler. -/
def TyExpr.erase : TyExpr → TyExpr
  | .leaf _ sh => .leaf .dyn sh
  | .fn args => .fn (TyExpr.erases args)
  | .reduce e _ axes keep => .reduce e.erase .dyn axes keep
  | .view e us => .view e.erase us
  | .bcast e _ sh => .bcast e.erase .dyn sh
/-- Operands of a function. -/
def TyExpr.erases : List TyExpr → List TyExpr
  | [] => []
  | e :: es => e.erase :: TyExpr.erases es
end

end Xt
