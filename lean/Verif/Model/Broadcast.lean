/-!
# Model of broadcasting: `core/xstrides.hpp`, `core/xfunction.hpp`, `containers/xscalar.hpp`
-/

namespace Xt

/-- `std::numeric_limits<std::size_t>::max()`, the "not yet set" marker of `uninitialized_shape`
— core/xstrides.hpp:725-731. -/
def szMax : Nat := 18446744073709551615

/-- `uninitialized_shape(size)` — core/xstrides.hpp:725-731. -/
def uninitializedShape (n : Nat) : List Nat := List.replicate n szMax

/-- Loop of `broadcast_shape` — core/xstrides.hpp:746-773.  The C++ loop walks both shapes from the
last axis, so the lists here are reversed shapes (input, output); `t` is `trivial_broadcast`.
`none`: `throw_broadcast_error`.  Entries of `output` not reached stay as they are. -/
def bcLoop : List Nat → List Nat → Bool → Option (List Nat × Bool)
  | [], out, t => some (out, t)
  | _ :: _, [], _ => none
  | i :: is, o :: os, t =>
    if o = szMax then (bcLoop is os t).map fun r => (i :: r.1, r.2)
    else if o = 1 then (bcLoop is os (t && i == 1)).map fun r => (i :: r.1, r.2)
    else if i = 1 then (bcLoop is os false).map fun r => (o :: r.1, r.2)
    else if i ≠ o then none
    else (bcLoop is os t).map fun r => (o :: r.1, r.2)

/-- `broadcast_shape(input, output)` — core/xstrides.hpp:733-776: new output and returned flag. -/
def broadcastShape (input output : List Nat) : Option (List Nat × Bool) :=
  if output.length < input.length then none
  else (bcLoop input.reverse output.reverse (input.length == output.length)).map
    fun r => (r.1.reverse, r.2)

/-- Loop of `broadcastable` — core/xstrides.hpp:784-788, on reversed shapes. -/
def broadcastableLoop : List Nat → List Nat → Bool
  | s :: ss, d :: ds => (s == d || s == 1) && broadcastableLoop ss ds
  | [], _ => true
  | _ :: _, [] => false

/-- `broadcastable(src, dst)` — core/xstrides.hpp:778-790. -/
def broadcastable (src dst : List Nat) : Bool :=
  decide (dst.length ≥ src.length) && broadcastableLoop src.reverse dst.reverse

/-- Operand trees as far as shapes are concerned: an expression with its own shape (container, view,
generator, ...), a scalar, or an `xfunction` node. -/
inductive ShExpr
  | leaf (shape : List Nat)
  | scalar
  | fn (args : List ShExpr)

mutual
/-- `dimension()` — core/xfunction.hpp:927-937 (`compute_dimension`: maximum over the operands, 0
for none); a leaf's dimension is its shape's length, a scalar's is 0. -/
def ShExpr.dim : ShExpr → Nat
  | .leaf s => s.length
  | .scalar => 0
  | .fn args => ShExpr.dims args
/-- Maximum over operands. -/
def ShExpr.dims : List ShExpr → Nat
  | [] => 0
  | e :: es => max (ShExpr.dim e) (ShExpr.dims es)
end

mutual
/-- `e.broadcast_shape(shape)` without cache — leaf: containers/xcontainer.hpp:620-624 and the other
expressions forwarding to `xt::broadcast_shape`; scalar: containers/xscalar.hpp:611-614 (returns
true, shape untouched); function: core/xfunction.hpp:717-733. -/
def ShExpr.bc : ShExpr → List Nat → Option (List Nat × Bool)
  | .leaf s, out => broadcastShape s out
  | .scalar, out => some (out, true)
  | .fn args, out => ShExpr.bcs args out true
/-- `accumulate(func, true, m_e)` with `func(b, e) = e.broadcast_shape(shape) && b` —
core/xfunction.hpp:726-731. -/
def ShExpr.bcs : List ShExpr → List Nat → Bool → Option (List Nat × Bool)
  | [], out, b => some (out, b)
  | e :: es, out, b =>
    match ShExpr.bc e out with
    | none => none
    | some r => ShExpr.bcs es r.1 (r.2 && b)
end

/-- Shape and triviality of an expression as computed by `compute_cached_shape`
— core/xfunction.hpp:577-584 — and by `resize` in assignment — core/xassign.hpp:599-605. -/
def ShExpr.shape (e : ShExpr) : Option (List Nat × Bool) := e.bc (uninitializedShape e.dim)

end Xt
