import Verif.Model.Broadcast
import Verif.Model.Container
import Verif.Model.Semantic
/-!
# Model: assigning expressions to arrays with a fixed number of axes

core/xassign.hpp, core/xfunction.hpp, containers/xcontainer.hpp.  `xtensor<T, N>` keeps its shape in a `std::array` of `N` extents.
Only shapes and numbers of stored elements are modelled; assertions are off, as by default.  Assignments that do not overlap with their
right-hand side (and `noalias`), core/xsemantic.hpp:620-640: the others do this to a temporary.
-/

namespace Xt

/-- The right-hand side: an `xfunction`, which may have been asked for its shape before and then has it in its cache, or something
else that has a shape. -/
inductive TensorRhs
  | fn (asked : Bool) (e : ShExpr)
  | other (s : List Nat)

/-- The shape that `xexpression_assigner::resize` makes — core/xassign.hpp:570-605.  For a function the shape is broadcast into an array
of `N` unset extents, or copied from the cache to its beginning (core/xfunction.hpp:717-733); `ub`: copied past its end.  Otherwise
`shape()` is copied into an array (containers/xcontainer.hpp:1014); `ub`: past its end, or some extents of the array are indeterminate. -/
def tensorShape (N : Nat) : TensorRhs → Res (List Nat)
  | .fn false e =>
    match e.bc (uninitializedShape N) with
    | none => .throws
    | some r => .ok r.1
  | .fn true e =>
    match e.shape with
    | none => .throws
    | some r => if r.1.length ≤ N then .ok (r.1 ++ uninitializedShape (N - r.1.length)) else .ub
  | .other s => if s.length = N then .ok s else .ub

/-- `t = rhs`: shape and number of stored elements before and after.  The new shape is stored first, then the storage is resized to the
product of the extents modulo 2^64, which throws if there is no room — containers/xcontainer.hpp:998-1021, core/xassign.hpp:480-485. -/
def tensorAssign (N room : Nat) (old : List Nat × Nat) (rhs : TensorRhs) : Out (List Nat × Nat) :=
  match tensorShape N rhs with
  | .throws => .throws old
  | .ub => .ub
  | .ok s =>
    if s = old.1 then .ok old
    else if s.prod % 2 ^ 64 ≤ room then .ok (s, s.prod % 2 ^ 64)
    else .throws (s, old.2)

/-- The expression `t op e`, made when `t op= e` is run — core/xsemantic.hpp:405-499. -/
def tensorOpEx (shape : List Nat) (e : ShExpr) : ShExpr := .fn [.leaf shape, e]

/-- `t op= e`: the operands overlap, so a temporary is made and moved — core/xsemantic.hpp:405-499, 620-656.  The temporary has the
shape (0, …, 0) and no element at first, or one if the expression has no axis — containers/xtensor.hpp:560-573,
containers/xcontainer.hpp:850-857. -/
def tensorOp (N room : Nat) (old : List Nat × Nat) (e : ShExpr) : Out (List Nat × Nat) :=
  match tensorAssign N room (List.replicate N 0, if (tensorOpEx old.1 e).dim = 0 then 1 else 0) (.fn false (tensorOpEx old.1 e)) with
  | .ok t => .ok t
  | .throws _ => .throws old
  | .ub => .ub

/-- `noalias(t) op= e` — core/xassign.hpp:488-523, core/xsemantic.hpp:526-617.  The shape of `t op e` is broadcast into `N` unset
extents (`uninitialized_shape` cannot change their number, core/xstrides.hpp:725-731).  If it has more axes or is greater, a temporary of
this shape is made and moved (containers/xtensor.hpp:440-445); otherwise the elements are assigned to the tensor as it is, and `ub`: it
has elements while the operands have none to read. -/
def tensorNoaliasOp (N room : Nat) (old : List Nat × Nat) (e : ShExpr) : Out (List Nat × Nat) :=
  match (tensorOpEx old.1 e).bc (uninitializedShape N) with
  | none => .throws old
  | some r =>
    if decide ((tensorOpEx old.1 e).dim > N) || lexGreater r.1 old.1 then
      if r.1 = List.replicate N 0 then .ok (r.1, 0)
      else if r.1.prod % 2 ^ 64 ≤ room then .ok (r.1, r.1.prod % 2 ^ 64)
      else .throws old
    else if r.1.prod = 0 ∧ 0 < old.1.prod then .ub
    else .ok old

end Xt
