import Verif.Model.Stepper
import Verif.Model.Strides
/-!
# Model: the ways to reach an element of a container

`operator()`, `operator[]`, `at`, `unchecked`, `periodic`, `flat` and iterators, each with its own computation of the place in the storage.
-/

namespace Xt

/-- One access to an element of a container. -/
inductive Acc
  /-- `a(i, j, ...)` — containers/xcontainer.hpp:441-463. -/
  | call (args : List Int)
  /-- `a[{i, j, ...}]`, `a.element(first, last)` — core/xaccessible.hpp:189-201, containers/xcontainer.hpp:534-555. -/
  | brackets (args : List Int)
  /-- `a.at(i, j, ...)` — core/xaccessible.hpp:173-179, 273-279. -/
  | checked (args : List Int)
  /-- `a.unchecked(i, j, ...)` — containers/xcontainer.hpp:486-521; `sd` is the number of axes if it is in the type. -/
  | unchecked (sd : Option Nat) (args : List Int)
  /-- `a.periodic(i, j, ...)` — core/xaccessible.hpp:215-221, 313-319. -/
  | periodic (args : List Int)
  /-- `a.flat(k)`, `a.storage()[k]`, `a.data()[k]` — containers/xcontainer.hpp:561-596, 671-688. -/
  | flat (k : Int)
  /-- `*(a.begin<lt>() + k)` — core/xiterable.hpp:949-975, core/xiterator.hpp:1136-1149. -/
  | iter (lt : Layout) (k : Int)

/-- The place in the storage that an access refers to, for a container of shape `sh` with the static layout `L` and the layout `l`.
Iterators in the order of the static layout are those of the storage, others have a stepper. -/
def Acc.pos (L l : Layout) (sh : List Nat) : Acc → Res Int
  | .call args => .ok (dataOffset (computeStrides L l sh).1 false args)
  | .brackets args => .ok (elementOffset (computeStrides L l sh).1 args)
  | .checked args => match atOffset sh (computeStrides L l sh).1 false args with
    | some p => .ok p
    | none => .throws
  | .unchecked sd args => .ok (uncheckedDataOffset L sd (computeStrides L l sh).1 args)
  | .periodic args => periodicOffset sh (computeStrides L l sh).1 args
  | .flat k => .ok k
  | .iter lt k =>
    let c := StridedArr.mk' sh (computeStrides L l sh).1 0
    if lt = L then .ok k else .ok (XIter.add (xstepperOps c 0) lt sh k (XIter.mkBegin (xstepperBegin c) sh)).st

variable {α : Type}

/-- Reading through an access; outside of the storage it is undefined. -/
def Acc.load (L l : Layout) (sh : List Nat) (mem : List α) (a : Acc) : Res α :=
  match a.pos L l sh with
  | .ok p => if 0 ≤ p then (match mem[p.toNat]? with
    | some x => .ok x
    | none => .ub) else .ub
  | .throws => .throws
  | .ub => .ub

/-- Writing through the reference that an access returns. -/
def Acc.store (L l : Layout) (sh : List Nat) (mem : List α) (a : Acc) (v : α) : Res (List α) :=
  match a.pos L l sh with
  | .ok p => if 0 ≤ p ∧ p < mem.length then .ok (mem.set p.toNat v) else .ub
  | .throws => .throws
  | .ub => .ub

/-- A sequence of such statements. -/
def Acc.storeAll (L l : Layout) (sh : List Nat) : List (Acc × α) → List α → Res (List α)
  | [], mem => .ok mem
  | w :: ws, mem => (w.1.store L l sh mem w.2).bind (Acc.storeAll L l sh ws)

end Xt
