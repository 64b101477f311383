import Verif.Model.Basic
/-!
# Model: shared expressions

Source: core/xexpression.hpp:69-103, 143-150, 490-766, core/xsemantic.hpp:619-655 (under /repo/include/xtensor).

The objects of a program are containers, with a value and the pointer `p_shared`, and shared expressions, with the pointer
`m_ptr`.  A destroyed object and a shared expression that was moved from have neither.  `cells` are the objects that
`std::make_shared` creates, each with its value and the number of pointers to it; with none it is destroyed.

Simplified: the value of a container is one value of a type `α`; the object in a cell has a `p_shared` of its own, which is
null and never reached.
-/

namespace Xt

variable {α : Type}

/-- A container (`val` is its value, `ptr` is `p_shared`) or a shared expression (`val` is none, `ptr` is `m_ptr`) —
core/xexpression.hpp:84-103, 677. -/
structure SObj (α : Type) where
  val : Option α
  ptr : Option Nat
deriving DecidableEq, Repr

/-- The objects of a program, in the order of their declarations, and the shared objects with the counts of pointers. -/
structure Sharing (α : Type) where
  objs : List (SObj α)
  cells : List (α × Nat)
deriving DecidableEq, Repr

/-- A pointer more: copy construction of `std::shared_ptr`. -/
def holdCell (cells : List (α × Nat)) : Option Nat → List (α × Nat)
  | none => cells
  | some c => cells.modify c fun (x : α × Nat) => (x.1, x.2 + 1)

/-- A pointer less: destruction of `std::shared_ptr`. -/
def releaseCell (cells : List (α × Nat)) : Option Nat → List (α × Nat)
  | none => cells
  | some c => cells.modify c fun (x : α × Nat) => (x.1, x.2 - 1)

/-- The pointer of object `i`. -/
def Sharing.ptr (s : Sharing α) (i : Nat) : Option Nat := (s.objs[i]?).bind SObj.ptr

/-- The value of container `i`. -/
def Sharing.val (s : Sharing α) (i : Nat) : Option α := (s.objs[i]?).bind SObj.val

/-- Assignment to the pointer of object `i`: the new count goes up before the old one goes down. -/
def Sharing.setPtr (s : Sharing α) (i : Nat) (q : Option Nat) : Sharing α :=
  if i < s.objs.length then
    { objs := s.objs.modify i fun (o : SObj α) => { o with ptr := q }
      cells := releaseCell (holdCell s.cells q) (s.ptr i) }
  else s

/-- Assignment to the value of container `i`. -/
def Sharing.setVal (s : Sharing α) (i : Nat) (x : Option α) : Sharing α :=
  { s with objs := s.objs.modify i fun (o : SObj α) => { o with val := x } }

/-- A new object. -/
def Sharing.push (s : Sharing α) (o : SObj α) : Sharing α :=
  { objs := s.objs ++ [o], cells := holdCell s.cells o.ptr }

/-- What a program does with containers and shared expressions. -/
inductive ShareOp (α : Type) where
  /-- A container with a value. -/
  | decl (x : α)
  /-- `auto w = v;` -/
  | copy (v : Nat)
  /-- `auto w = std::move(v);` -/
  | move (v : Nat)
  /-- `w = v;` -/
  | assign (w v : Nat)
  /-- `w = std::move(v);`, `w` and `v` different -/
  | moveAssign (w v : Nat)
  /-- `v = expression;` with the value of the expression, and whether it refers to the memory of `v` -/
  | assignExpr (v : Nat) (x : α) (overlap : Bool)
  /-- Writes to elements, `v += scalar`, `noalias(v) = expression`, `v.fill(…)`, … -/
  | poke (v : Nat) (x : α)
  /-- `auto h = share(v);`, `auto h = make_xshared(std::move(v));` -/
  | share (v : Nat)
  /-- `auto g = h;`, or an expression that holds `h` -/
  | copyShared (h : Nat)
  /-- `auto g = std::move(h);` -/
  | moveShared (h : Nat)
  /-- `h = g;` -/
  | assignShared (h g : Nat)
  /-- A write through `h`. -/
  | pokeShared (h : Nat) (x : α)
  /-- The end of an object. -/
  | drop (i : Nat)
deriving DecidableEq, Repr

/-- One step.  `moved` is what a container of a value is left with after it was moved from; `none`: the program names an
object that is not there or not of the right kind. -/
def Sharing.step (moved : α → α) (s : Sharing α) : ShareOp α → Option (Sharing α)
  | .decl x => some (s.push ⟨some x, none⟩)
  /- Defaulted copies and moves copy and move `p_shared` — core/xexpression.hpp:92-96. -/
  | .copy v => (s.val v).map fun (x : α) => s.push ⟨some x, s.ptr v⟩
  | .move v => (s.val v).map fun (x : α) => ((s.push ⟨some x, s.ptr v⟩).setPtr v none).setVal v (some (moved x))
  | .assign w v => (s.val w).bind fun (_ : α) => (s.val v).map fun (x : α) => (s.setVal w (some x)).setPtr w (s.ptr v)
  | .moveAssign w v =>
    if w = v then none else
    (s.val w).bind fun (_ : α) => (s.val v).map fun (x : α) =>
      (((s.setVal w (some x)).setPtr w (s.ptr v)).setPtr v none).setVal v (some (moved x))
  /- `operator=(const xexpression<E>&)` — core/xsemantic.hpp:619-640: through a temporary, whose `p_shared` is null, only if
  the memory overlaps; 651-655 is a move assignment. -/
  | .assignExpr v x overlap => (s.val v).map fun (_ : α) =>
      if overlap then (s.setVal v (some x)).setPtr v none else s.setVal v (some x)
  | .poke v x => (s.val v).map fun (_ : α) => s.setVal v (some x)
  /- `make_xshared_impl` — core/xexpression.hpp:712-724, from `make_xshared` (734-741) and `share` (751-766).
  `std::move(expr).derived_cast()` returns `*static_cast<derived_type*>(this)` by value (135-139): a copy. -/
  | .share v => (s.val v).map fun (x : α) =>
      let t := match s.ptr v with
        | none => { s with cells := s.cells ++ [(x, 0)] }.setPtr v (some s.cells.length)
        | some _ => s
      t.push ⟨none, t.ptr v⟩
  /- Implicit copies and moves of `xshared_expression` — core/xexpression.hpp:511, 677. -/
  | .copyShared h => (s.ptr h).bind fun (c : Nat) => if (s.val h).isNone then some (s.push ⟨none, some c⟩) else none
  | .moveShared h => (s.ptr h).bind fun (c : Nat) =>
      if (s.val h).isNone then some ((s.push ⟨none, some c⟩).setPtr h none) else none
  | .assignShared h g => (s.ptr h).bind fun (_ : Nat) =>
      if (s.val h).isNone ∧ (s.val g).isNone then some (s.setPtr h (s.ptr g)) else none
  | .pokeShared h x => (s.ptr h).bind fun (c : Nat) =>
      if (s.val h).isNone then some { s with cells := s.cells.modify c fun (y : α × Nat) => (x, y.2) } else none
  | .drop i => if i < s.objs.length then some ((s.setPtr i none).setVal i none) else none

/-- A program. -/
def Sharing.run (moved : α → α) (s : Sharing α) : List (ShareOp α) → Option (Sharing α)
  | [] => some s
  | op :: ops => (s.step moved op).bind fun (t : Sharing α) => t.run moved ops

/-- No object yet. -/
def Sharing.start : Sharing α := ⟨[], []⟩

/-- A read through shared expression `h` — core/xexpression.hpp:553-557; `ub`: of a null pointer or a destroyed object. -/
def Sharing.read (s : Sharing α) (h : Nat) : Res α :=
  match (s.ptr h).bind fun (c : Nat) => s.cells[c]? with
  | some (x, _ + 1) => .ok x
  | some (_, 0) => .ub
  | none => .ub

/-- `h.use_count()` — core/xexpression.hpp:702-706. -/
def Sharing.useCount (s : Sharing α) (h : Nat) : Nat :=
  (((s.ptr h).bind fun (c : Nat) => s.cells[c]?).map Prod.snd).getD 0

end Xt
