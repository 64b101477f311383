import Verif.Model.Broadcast
/-!
# Model: the shape cache of `xfunction` (core/xfunction.hpp)

An expression is a tree of references to variables, scalars and functions.  A function remembers its shape and
triviality once `shape()` has been called on it (`m_cache`); the functions inside it have caches of their own, filled if
`shape()` is called on them.  Variables have shapes that change over time: the store.

`shape()` is also what `size()`, `begin()`, `end()`, the checked accessors and the overlap check of assignments to views
call (core/xexpression.hpp:280-360, core/xiterable.hpp, core/xfunction.hpp:186-196, 875-881).
-/

namespace Xt

/-- An expression over variables; a function carries `m_cache`, if initialized: shape and `is_trivial` —
    core/xfunction.hpp:80-110, 396-400. -/
inductive LExpr
  | var (i : Nat)
  | scalar
  | fn (cache : Option (List Nat × Bool)) (args : List LExpr)

mutual
/-- `dimension()`: of the cached shape, or the largest of the operands' — core/xfunction.hpp:570-574, 927-937. -/
def LExpr.dimension (σ : Nat → List Nat) : LExpr → Nat
  | .var i => (σ i).length
  | .scalar => 0
  | .fn (some c) _ => c.1.length
  | .fn none args => LExpr.dimensions σ args
/-- `compute_dimension()`. -/
def LExpr.dimensions (σ : Nat → List Nat) : List LExpr → Nat
  | [] => 0
  | e :: es => max (LExpr.dimension σ e) (LExpr.dimensions σ es)
end

mutual
/-- `broadcast_shape(shape)` with `reuse_cache` false, as for operands — core/xfunction.hpp:724-732. -/
def LExpr.broadcast (σ : Nat → List Nat) : LExpr → List Nat → Option (List Nat × Bool)
  | .var i, out => broadcastShape (σ i) out
  | .scalar, out => some (out, true)
  | .fn _ args, out => LExpr.broadcasts σ args out true
/-- The operands, one after the other. -/
def LExpr.broadcasts (σ : Nat → List Nat) : List LExpr → List Nat → Bool → Option (List Nat × Bool)
  | [], out, b => some (out, b)
  | e :: es, out, b =>
    match LExpr.broadcast σ e out with
    | none => none
    | some r => LExpr.broadcasts σ es r.1 (r.2 && b)
end

/-- `shape()`: the expression afterwards, and the shape; `none` is the broadcast error, which leaves the cache
    uninitialized — core/xfunction.hpp:576-600. -/
def LExpr.useShape (σ : Nat → List Nat) : LExpr → LExpr × Option (List Nat)
  | .var i => (.var i, some (σ i))
  | .scalar => (.scalar, some [])
  | .fn (some c) args => (.fn (some c) args, some c.1)
  | .fn none args =>
    match LExpr.broadcasts σ args (uninitializedShape (LExpr.dimensions σ args)) true with
    | none => (.fn none args, none)
    | some c => (.fn (some c) args, some c.1)

/-- What an assignment to a container finds: `dimension()`, then `broadcast_shape(shape, true)` — core/xassign.hpp:580-606,
    core/xfunction.hpp:716-733.  It reads the cache of the function assigned and fills none. -/
def LExpr.assignShape (σ : Nat → List Nat) (e : LExpr) : Option (List Nat × Bool) :=
  match e with
  | .fn (some c) _ => some c
  | _ => LExpr.broadcast σ e (uninitializedShape (LExpr.dimension σ e))

/-- `shape()` on the expression at a place in the tree: the operand numbers on the way. -/
def LExpr.useAt (σ : Nat → List Nat) : List Nat → LExpr → LExpr × Option (List Nat)
  | [], e => e.useShape σ
  | k :: p, .fn c args =>
    match args[k]? with
    | none => (.fn c args, none)
    | some a => (.fn c (args.set k (LExpr.useAt σ p a).1), (LExpr.useAt σ p a).2)
  | _ :: _, e => (e, none)

/-- What happens between uses: `shape()` somewhere in the expression, or a variable gets a shape. -/
inductive CacheEvent
  | use (path : List Nat)
  | resize (i : Nat) (shape : List Nat)

/-- The variables, with variable `i` resized. -/
def resizeVar (σ : Nat → List Nat) (i : Nat) (s : List Nat) : Nat → List Nat := fun j => if j = i then s else σ j

/-- One event. -/
def cacheStep : (Nat → List Nat) × LExpr → CacheEvent → (Nat → List Nat) × LExpr
  | (σ, e), .use p => (σ, (e.useAt σ p).1)
  | (σ, e), .resize i s => (resizeVar σ i s, e)

/-- A history. -/
def cacheRun (st : (Nat → List Nat) × LExpr) (evs : List CacheEvent) : (Nat → List Nat) × LExpr := evs.foldl cacheStep st

end Xt
