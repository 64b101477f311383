import Verif.Model.Container
import Verif.Model.Semantic
import Verif.Model.Sort
/-!
# Model: statements that assign to arrays, when allocations and the computation of elements throw

An allocation of a storage throws `std::bad_alloc`; the computation of an element throws whatever the functor throws.  Each
statement is told whether its allocations succeed.

Simplified: `xarray`s with `uvector` storage, whose `resize` keeps the old block when the new one cannot be had (C97); shapes and
strides are kept without allocation (up to four axes, core/xtensor_config.hpp:54-58); the loops without batches and in one thread;
an expression that does not overlap the destination is evaluated before the loop instead of in it.
-/

namespace Xt
open Spec

/-- An expression as an assignment sees it: its shape, or the exception of `broadcast_shape`, and its elements, or the exceptions
of their computation. -/
structure FExpr (α : Type) where
  shape : Option (List Nat)
  elem : List Nat → Option α

/-- What the library is compiled with, and what is in memory that was just allocated. -/
structure FCfg (α : Type) where
  /-- `XTENSOR_FORCE_TEMPORARY_MEMORY_IN_ASSIGNMENTS` — core/xsemantic.hpp:621-626. -/
  force : Bool
  /-- `XTENSOR_DEFAULT_LAYOUT`. -/
  d : Layout
  fresh : Nat → List α
  v0 : α

variable {α : Type}

/-- `resize(shape)` — containers/xcontainer.hpp:1000-1021; without allocation if the number of elements does not change. -/
def resizeF (g : FCfg α) (alloc : Bool) (c : Cont α) (s : List Nat) : Out (Cont α) :=
  c.resize g.d g.fresh (alloc || decide (computeSize s = c.storage.length)) s false

/-- A loop of assignments to positions of the storage, ended by the first value that cannot be computed —
core/xassign.hpp:652-667, 797-808. -/
def writeUntil (c : Cont α) : List (Int × Option α) → Out (Cont α)
  | [] => .ok c
  | (_, none) :: _ => .throws c
  | (p, some x) :: r =>
    if 0 ≤ p ∧ p.toNat < c.storage.length then writeUntil { c with storage := c.storage.set p.toNat x } r else .ub

/-- The indices in the order of the loops — core/xassign.hpp:476, core/xlayout.hpp:93-96. -/
def loopOrder (g : FCfg α) (c : Cont α) : List (List Nat) :=
  storageIndices (if c.L = .row_major ∨ c.L = .column_major then c.L else g.d) c.shape

/-- `assign_data` — core/xassign.hpp:439-478. -/
def assignDataF (g : FCfg α) (c : Cont α) (elem : List Nat → Option α) : Out (Cont α) :=
  writeUntil c ((loopOrder g c).map fun i => (dataOffset c.strides false (toInts i), elem i))

/-- Go on with the container unless there was an exception. -/
def Out.next (o : Out (Cont α)) (k : Cont α → Out (Cont α)) : Out (Cont α) :=
  match o with
  | .ok c => k c
  | .throws c => .throws c
  | .ub => .ub

/-- `assign_xexpression` — core/xassign.hpp:480-486, 571-607. -/
def directF (g : FCfg α) (alloc : Bool) (c : Cont α) (e : FExpr α) : Out (Cont α) :=
  match e.shape with
  | none => .throws c
  | some s => (resizeF g alloc c s).next fun c => assignDataF g c e.elem

/-- `temporary_type tmp(e); assign_temporary(std::move(tmp))` — core/xsemantic.hpp:622-633, 651-655,
containers/xarray.hpp:280-285, 501-511: if the constructor throws, the temporary is gone and the array as it was. -/
def temporaryF (g : FCfg α) (alloc : Bool) (c : Cont α) (e : FExpr α) : Out (Cont α) :=
  match directF g alloc (Cont.default c.L 0 g.v0) e with
  | .ok t => .ok t
  | .throws _ => .throws c
  | .ub => .ub

/-- `computed_assign` — core/xassign.hpp:488-523. -/
def computedF (g : FCfg α) (alloc : Bool) (c : Cont α) (e : FExpr α) : Out (Cont α) :=
  match e.shape with
  | none => .throws c
  | some s =>
    if decide (s.length > c.shape.length) || lexGreater s c.shape then
      match (resizeF g alloc (Cont.default c.L 0 g.v0) s).next fun t => assignDataF g t e.elem with
      | .ok t => .ok t
      | .throws _ => .throws c
      | .ub => .ub
    else assignDataF g c e.elem

/-- Statements about variables, given by their numbers.  The elements of an expression depend on the variables. -/
inductive FStmt (α : Type)
  /-- `a = e`, `a += b` (then `e` is `a + b` and overlaps `a`). -/
  | assign (k : Nat) (e : List (Cont α) → FExpr α) (overlap : Bool)
  /-- `noalias(a) = e`. -/
  | noalias (k : Nat) (e : List (Cont α) → FExpr α)
  /-- `noalias(a) += b`; `e` is `a + b`. -/
  | noaliasOp (k : Nat) (e : List (Cont α) → FExpr α)
  /-- `a += 1`: the element gets the value of `f`, which may throw. -/
  | scalarOp (k : Nat) (f : α → Option α)
  /-- `a = b` for two arrays. -/
  | copy (k j : Nat)
  /-- `a.resize(shape)`. -/
  | resize (k : Nat) (s : List Nat)

/-- The variable that a statement changes. -/
def FStmt.dest : FStmt α → Nat
  | .assign k _ _ => k
  | .noalias k _ => k
  | .noaliasOp k _ => k
  | .scalarOp k _ => k
  | .copy k _ => k
  | .resize k _ => k

/-- Change variable `k`. -/
def changeF (σ : List (Cont α)) (k : Nat) (f : Cont α → Out (Cont α)) : Out (List (Cont α)) :=
  match σ[k]? with
  | none => .ub
  | some c => match f c with
    | .ok c => .ok (σ.set k c)
    | .throws c => .throws (σ.set k c)
    | .ub => .ub

/-- The copy assignment of `xarray`, which is that of its members: first shape, strides, backstrides and layout, then the
storage (elements of trivial types) — containers/xarray.hpp:128-129, containers/xcontainer.hpp:300,
containers/xstorage.hpp:318-339. -/
def copyF (alloc : Bool) (c rhs : Cont α) : Out (Cont α) :=
  if alloc || decide (rhs.storage.length = c.storage.length) then .ok { rhs with L := c.L }
  else .throws { rhs with L := c.L, storage := c.storage }

/-- One statement.  `scalarOp` walks over the storage — core/xassign.hpp:525-537. -/
def FStmt.run (g : FCfg α) (alloc : Bool) (σ : List (Cont α)) : FStmt α → Out (List (Cont α))
  | .assign k e overlap => changeF σ k fun c =>
      if g.force || overlap then temporaryF g alloc c (e σ) else directF g alloc c (e σ)
  | .noalias k e => changeF σ k fun c => directF g alloc c (e σ)
  | .noaliasOp k e => changeF σ k fun c => computedF g alloc c (e σ)
  | .scalarOp k f => changeF σ k fun c =>
      writeUntil c (c.storage.mapIdx fun (i : Nat) (x : α) => ((i : Int), f x))
  | .copy k j => match σ[j]? with
    | none => .ub
    | some rhs => changeF σ k fun c => if k = j then .ok c else copyF alloc c rhs
  | .resize k s => changeF σ k fun c => resizeF g alloc c s

/-- A program that goes on after exceptions: each statement with the success of its allocations. -/
def runCatching (g : FCfg α) : List (Bool × FStmt α) → List (Cont α) → Option (List (Cont α))
  | [], σ => some σ
  | (alloc, s) :: r, σ => match s.run g alloc σ with
    | .ok σ => runCatching g r σ
    | .throws σ => runCatching g r σ
    | .ub => none

end Xt
