import Verif.Model.Stepper
/-!
# Lazy expressions and their steppers

An expression is a tree of strided operands, scalars, generators (`xgenerator`), functions
(`xfunction`) and broadcasts (`xbroadcast`).
-/

namespace Xt

/-- `xbounded_iterator::operator*` — core/xiterator.hpp:1260-1264: the coordinate clamped to
`bound - 1`.  Coordinates are unsigned, so a coordinate decremented below zero is clamped too. -/
def boundedCoord (n : Nat) (i : Int) : Int := if i < 0 then (n : Int) - 1 else min i ((n : Int) - 1)

/-- The index `xgenerator::element` passes to its functor — generators/xgenerator.hpp:318-325: bounds
are taken from the first axes on.  With more coordinates than axes the bounds of the extra ones are
read past the shape; they are dropped here. -/
def boundedIndex (shape : List Nat) (idx : List Int) : List Int := List.zipWith boundedCoord shape idx

mutual
/-- Expression tree.  `arr`: a container or strided view with the storage it reads;
`gen`: `xgenerator` with its functor — generators/xgenerator.hpp:55-213; `fn`: `xfunction` — core/xfunction.hpp:217-470; `bcast`: `xbroadcast` — views/xbroadcast.hpp:158-250. -/
inductive Ex (α : Type)
  | arr (c : StridedArr) (mem : Int → α)
  | scalar (v : α)
  | gen (shape : List Nat) (g : List Int → α)
  | fn (f : List α → α) (args : Args α)
  | bcast (e : Ex α) (shape : List Nat)
/-- Operand tuple of an `xfunction`. -/
inductive Args (α : Type)
  | nil
  | cons (e : Ex α) (es : Args α)
end

variable {α : Type}

mutual
/-- State of `const_stepper`: `xstepper` position, `xscalar_stepper`, `xindexed_stepper`, tuple of the operands' steppers
(core/xfunction.hpp:474-530), the operand's own stepper (views/xbroadcast.hpp:80). -/
def Ex.State : Ex α → Type
  | .arr _ _ => Int
  | .scalar _ => Unit
  | .gen _ _ => List Int
  | .fn _ args => args.States
  | .bcast e _ => e.State
/-- Tuple of stepper states. -/
def Args.States : Args α → Type
  | .nil => Unit
  | .cons e es => e.State × es.States
end

mutual
/-- Stepper operations of an expression iterated under a shape with `dim` axes. A container uses
`offset = shape.size() - dimension()` (containers/xcontainer.hpp:694-724). -/
def Ex.ops (dim : Nat) : (e : Ex α) → StepOps e.State
  | .arr c _ => xstepperOps c (dim - c.shape.length)
  | .scalar _ => xscalarOps
  | .gen sh _ => xindexedOps sh (dim - sh.length)
  | .fn _ args => args.opss dim
  | .bcast e _ => e.ops dim
/-- `for_each` over the tuple — core/xfunction.hpp:1073-1150. -/
def Args.opss (dim : Nat) : (es : Args α) → StepOps es.States
  | .nil => xscalarOps
  | .cons e es => pairOps (e.ops dim) (es.opss dim)
end

mutual
/-- `stepper_begin(shape)` — containers/xcontainer.hpp:710-716, containers/xscalar.hpp:881-886,
core/xfunction.hpp:773-782, views/xbroadcast.hpp:449-455, generators/xgenerator.hpp:361-366. -/
def Ex.stBegin : (e : Ex α) → e.State
  | .arr c _ => xstepperBegin c
  | .scalar _ => ()
  | .gen sh _ => List.replicate sh.length 0
  | .fn _ args => args.stBegins
  | .bcast e _ => e.stBegin
/-- Operands of a function. -/
def Args.stBegins : (es : Args α) → es.States
  | .nil => ()
  | .cons e es => (e.stBegin, es.stBegins)
end

mutual
/-- `stepper_end(shape, l)` — containers/xcontainer.hpp:718-724, containers/xscalar.hpp:888-893,
core/xfunction.hpp:784-793, views/xbroadcast.hpp:457-463.  A generator ignores `l` and uses
`XTENSOR_DEFAULT_TRAVERSAL`, row major (generators/xgenerator.hpp:369-374, core/xiterator.hpp:962-972). -/
def Ex.stEnd (dim : Nat) (l : Layout) : (e : Ex α) → e.State
  | .arr c _ => xstepperEnd c l (dim - c.shape.length)
  | .scalar _ => ()
  | .gen sh _ => (xindexedOps sh (dim - sh.length)).toEnd [] .row_major
  | .fn _ args => args.stEnds dim l
  | .bcast e _ => e.stEnd dim l
/-- Operands of a function. -/
def Args.stEnds (dim : Nat) (l : Layout) : (es : Args α) → es.States
  | .nil => ()
  | .cons e es => (e.stEnd dim l, es.stEnds dim l)
end

mutual
/-- `operator*` — core/xiterator.hpp:484-488, containers/xscalar.hpp:980-984,
core/xfunction.hpp:1152-1163, core/xiterator.hpp:974-978 with `xgenerator::element`. -/
def Ex.deref : (e : Ex α) → e.State → α
  | .arr _ mem, p => mem p
  | .scalar v, _ => v
  | .gen sh g, p => g (boundedIndex sh p)
  | .fn f args, p => f (args.derefs p)
  | .bcast e _, p => e.deref p
/-- Operands of a function. -/
def Args.derefs : (es : Args α) → es.States → List α
  | .nil, _ => []
  | .cons e es, p => e.deref p.1 :: es.derefs p.2
end

mutual
/-- `element(first, last)` — containers/xcontainer.hpp:549-555, containers/xscalar.hpp:590-595,
core/xfunction.hpp:696-701, views/xbroadcast.hpp:398-404: the operands receive the
(possibly too long) index, generators included (generators/xgenerator.hpp:318-325); a broadcast passes on its last `dimension()` entries. -/
def Ex.element : Ex α → List Int → α
  | .arr c mem, idx => mem (c.off + elementOffset c.strides idx)
  | .scalar v, _ => v
  | .gen sh g, idx => g (boundedIndex sh idx)
  | .fn f args, idx => f (args.elements idx)
  | .bcast e s, idx => e.element (idx.drop (idx.length - s.length))
/-- Operands of a function. -/
def Args.elements : Args α → List Int → List α
  | .nil, _ => []
  | .cons e es, idx => e.element idx :: es.elements idx
end

/-- `begin<L>(shape)` — core/xiterable.hpp:700-706: iterator over the expression under the
given shape. -/
def Ex.iterBegin (e : Ex α) (sh : List Nat) : XIter e.State := XIter.mkBegin e.stBegin sh

/-- `end<L>(shape)` — core/xiterable.hpp:708-714. -/
def Ex.iterEnd (e : Ex α) (L : Layout) (sh : List Nat) : XIter e.State :=
  XIter.mkEnd (e.stEnd sh.length L) L sh

/-- `for (it = begin<L>(sh); it != end<L>(sh); ++it) *it`. -/
def Ex.values (e : Ex α) (L : Layout) (sh : List Nat) : List α :=
  (XIter.walk (e.ops sh.length) L sh (e.iterEnd L sh) (sh.foldl (· * ·) 1 + 1)
    (e.iterBegin sh)).map e.deref

/-- `for (it = rbegin<L>(sh); it != rend<L>(sh); ++it) *it`. -/
def Ex.rvalues (e : Ex α) (L : Layout) (sh : List Nat) : List α :=
  (XIter.walkBack (e.ops sh.length) L sh (e.iterBegin sh) (sh.foldl (· * ·) 1 + 1)
    (e.iterEnd L sh)).map e.deref

end Xt
