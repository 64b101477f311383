import Verif.Model.AssignFail
/-!
# Model: arrays that are copied, moved, converted and given a value again

`xarray` and `xtensor` have the move operations of their members, so what is left of an array that was moved from depends on
the types of the members: shape and strides are `svector`s in an `xarray` and `std::array`s in an `xtensor`; the storage is a
`uvector` in both.

Simplified: allocations succeed and the functions of expressions do not throw (C100); in `MvStmt.run` an expression that is
assigned in place is evaluated before the loop; `MvStmt.runLive` computes every element in the loop, from the variables as they are
then, and C103_live compares the two; that an `xtensor` gets a shape of another length, which
`XTENSOR_ASSERT` or the compiler rejects, is undefined except in the assignment from an `xarray`; variables are not destroyed.
-/

namespace Xt
open Spec

variable {α : Type}

/-- A variable: the `N` of an `xtensor`, none for an `xarray`, and the members. -/
structure MvVar (α : Type) where
  rank : Option Nat
  cont : Cont α
  deriving Repr, DecidableEq

/-- An expression over variables: shape from the shapes of the variables; for each index the elements that are read and the
value from what was read.  Functions, views, reductions and generators have this form. -/
structure MvExpr (α : Type) where
  shape : List (List Nat) → List Nat
  reads : List (List Nat) → List Nat → List (Nat × List Nat)
  value : List (List Nat) → List Nat → List α → α

/-- Statements; new variables come last. -/
inductive MvStmt (α : Type)
  /-- `xarray<T, L> x(e)`, `xtensor<T, N, L> x(e)`. -/
  | create (rank : Option Nat) (L : Layout) (e : MvExpr α)
  /-- `auto x = y`. -/
  | copyNew (j : Nat)
  /-- `auto x = std::move(y)`. -/
  | moveNew (j : Nat)
  /-- `xtensor<T, N, L> x(std::move(y))` for an `xarray` `y`, and the other way round. -/
  | convNew (rank : Option Nat) (j : Nat)
  /-- `x = y`. -/
  | copy (k j : Nat)
  /-- `x = std::move(y)`. -/
  | move (k j : Nat)
  /-- `x = std::move(y)` for an `xtensor` and an `xarray`. -/
  | conv (k j : Nat)
  /-- `x = e`; `overlap` is what `overlapping_memory_checker` finds (C88). -/
  | assign (k : Nat) (e : MvExpr α) (overlap : Bool)
  /-- `noalias(x) = e`. -/
  | noalias (k : Nat) (e : MvExpr α)
  /-- `x.resize(shape)`. -/
  | resize (k : Nat) (s : List Nat)

/-- An element of a variable through `operator()` — containers/xcontainer.hpp:438-445. -/
def mvRead (σ : List (MvVar α)) (r : Nat × List Nat) : Option α :=
  match σ[r.1]? with
  | none => none
  | some v => v.cont.elem? (toInts r.2)

/-- An element of an expression. -/
def MvExpr.elem (e : MvExpr α) (σ : List (MvVar α)) (i : List Nat) : Option α :=
  ((e.reads (σ.map (·.cont.shape)) i).mapM (mvRead σ)).map (e.value (σ.map (·.cont.shape)) i)

/-- The expression as the assignment sees it; none if an element cannot be read. -/
def MvExpr.eval (e : MvExpr α) (σ : List (MvVar α)) : Option (FExpr α) :=
  if (rowIndices (e.shape (σ.map (·.cont.shape)))).all (fun i => (e.elem σ i).isSome) then
    some ⟨some (e.shape (σ.map (·.cont.shape))), e.elem σ⟩
  else none

/-- Can a variable have the shape? -/
def fitsRank (rank : Option Nat) (s : List Nat) : Bool :=
  match rank with
  | none => true
  | some n => s.length == n

/-- What the move constructor leaves of the source — containers/xarray.hpp:131, containers/xtensor.hpp:126,
containers/xcontainer.hpp:217, 302; `svector`: exchanged with an empty one (containers/xstorage.hpp:894-899); `std::array`: as
it was; `uvector`: empty (containers/xstorage.hpp:341-348). -/
def MvVar.leftByNew (v : MvVar α) : MvVar α :=
  match v.rank with
  | none => { v with cont := { v.cont with shape := [], strides := [], backstr := [], storage := [] } }
  | some _ => { v with cont := { v.cont with storage := [] } }

/-- What the move assignment leaves of the source — containers/xarray.hpp:132, containers/xtensor.hpp:127,
containers/xcontainer.hpp:218, 303; `svector` copies (containers/xstorage.hpp:849-855); `uvector`: empty
(containers/xstorage.hpp:360-368).  The same for the conversions — containers/xarray.hpp:466-490, containers/xtensor.hpp:515-541. -/
def MvVar.leftByAssign (v : MvVar α) : MvVar α :=
  { v with cont := { v.cont with storage := [] } }

/-- The members after the assignment from another variable: of the same type (containers/xarray.hpp:129, 132), or shape, strides,
backstrides, layout and storage of the conversion (containers/xarray.hpp:479-490). -/
def MvVar.takes (x y : MvVar α) : MvVar α :=
  { x with cont := { y.cont with L := x.cont.L } }

/-- The entries that are copied into a `std::array` with `std::copy`; the others are as they were; nothing protects the end —
containers/xtensor.hpp:534-537. -/
def overArray {β : Type} (dst src : List β) : Option (List β) :=
  if src.length ≤ dst.length then some (src ++ dst.drop src.length) else none

/-- `xtensor = std::move(xarray)` — containers/xtensor.hpp:529-541. -/
def MvVar.takesArray (x y : MvVar α) : Option (MvVar α) :=
  match overArray x.cont.shape y.cont.shape, overArray x.cont.strides y.cont.strides,
      overArray x.cont.backstr y.cont.backstr with
  | some s, some st, some b =>
    some { x with cont := { L := x.cont.L, layout := y.cont.layout, shape := s, strides := st, backstr := b,
                            storage := y.cont.storage } }
  | _, _, _ => none

/-- The constructor from an expression: the default constructor, then the assignment — containers/xarray.hpp:501-511,
containers/xtensor.hpp:556-561, containers/xcontainer.hpp:850-857. -/
def mvConstruct (g : FCfg α) (rank : Option Nat) (L : Layout) (e : FExpr α) : Out (Cont α) :=
  directF g true (Cont.default L (rank.getD 0) g.v0) e

/-- `x = e` and `noalias(x) = e` for one variable — core/xsemantic.hpp:622-633, 651-655; a temporary is moved into the
variable. -/
def MvVar.assignE (g : FCfg α) (viaTmp : Bool) (v : MvVar α) (e : FExpr α) : Out (MvVar α) :=
  let r := if viaTmp then mvConstruct g v.rank v.cont.L e else directF g true v.cont e
  match r with
  | .ok c => .ok { v with cont := c }
  | .throws c => .throws { v with cont := if viaTmp then v.cont else c }
  | .ub => .ub

/-- Assign an expression to variable `k`. -/
def mvAssign (g : FCfg α) (viaTmp : Bool) (σ : List (MvVar α)) (k : Nat) (e : MvExpr α) : Out (List (MvVar α)) :=
  match σ[k]?, e.eval σ with
  | some v, some fe =>
    if fitsRank v.rank (e.shape (σ.map (·.cont.shape))) then
      match v.assignE g viaTmp fe with
      | .ok v => .ok (σ.set k v)
      | .throws v => .throws (σ.set k v)
      | .ub => .ub
    else .ub
  | _, _ => .ub

/-- One statement. -/
def MvStmt.run (g : FCfg α) (σ : List (MvVar α)) : MvStmt α → Out (List (MvVar α))
  | .create rank L e => match e.eval σ with
    | none => .ub
    | some fe =>
      if fitsRank rank (e.shape (σ.map (·.cont.shape))) then
        match mvConstruct g rank L fe with
        | .ok c => .ok (σ ++ [⟨rank, c⟩])
        | .throws _ => .throws σ
        | .ub => .ub
      else .ub
  | .copyNew j => match σ[j]? with
    | none => .ub
    | some v => .ok (σ ++ [v])
  | .moveNew j => match σ[j]? with
    | none => .ub
    | some v => .ok (σ.set j v.leftByNew ++ [v])
  | .convNew rank j => match σ[j]? with
    | none => .ub
    | some v => if fitsRank rank v.cont.shape then .ok (σ.set j v.leftByAssign ++ [⟨rank, v.cont⟩]) else .ub
  | .copy k j => match σ[k]?, σ[j]? with
    | some x, some y => if k = j then .ok σ else .ok (σ.set k (x.takes y))
    | _, _ => .ub
  | .move k j => match σ[k]?, σ[j]? with
    | some x, some y => if k = j then .ok σ else .ok ((σ.set k (x.takes y)).set j y.leftByAssign)
    | _, _ => .ub
  | .conv k j => match σ[k]?, σ[j]? with
    | some x, some y => match x.rank with
      | none => .ok ((σ.set k (x.takes y)).set j y.leftByAssign)
      | some _ => match x.takesArray y with
        | some x => .ok ((σ.set k x).set j y.leftByAssign)
        | none => .ub
    | _, _ => .ub
  | .assign k e overlap => mvAssign g (g.force || overlap) σ k e
  | .noalias k e => mvAssign g false σ k e
  | .resize k s => match σ[k]? with
    | none => .ub
    | some v => if fitsRank v.rank s then
        match resizeF g true v.cont s with
        | .ok c => .ok (σ.set k { v with cont := c })
        | .throws c => .throws (σ.set k { v with cont := c })
        | .ub => .ub
      else .ub

/-- A program; it ends with the first exception. -/
def mvRun (g : FCfg α) : List (MvStmt α) → List (MvVar α) → Out (List (MvVar α))
  | [], σ => .ok σ
  | s :: r, σ => match s.run g σ with
    | .ok σ => mvRun g r σ
    | .throws σ => .throws σ
    | .ub => .ub

/-- The loop over the elements of variable `k`: every value is computed from the variables as they are when it is needed —
core/xassign.hpp:652-667, 797-808. -/
def liveLoop (e : MvExpr α) (k : Nat) : List (Int × List Nat) → List (MvVar α) → Out (List (MvVar α))
  | [], σ => .ok σ
  | (p, i) :: r, σ => match σ[k]?, e.elem σ i with
    | some v, some x =>
      if 0 ≤ p ∧ p.toNat < v.cont.storage.length then
        liveLoop e k r (σ.set k { v with cont := { v.cont with storage := v.cont.storage.set p.toNat x } })
      else .ub
    | _, _ => .ub

/-- `assign_xexpression` in place: resize, then the loop — core/xassign.hpp:439-486, 571-607. -/
def liveAssign (g : FCfg α) (σ : List (MvVar α)) (k : Nat) (e : MvExpr α) : Out (List (MvVar α)) :=
  match σ[k]? with
  | none => .ub
  | some v =>
    if fitsRank v.rank (e.shape (σ.map (·.cont.shape))) then
      match resizeF g true v.cont (e.shape (σ.map (·.cont.shape))) with
      | .ok c => liveLoop e k ((loopOrder g c).map fun i => (dataOffset c.strides false (toInts i), i))
          (σ.set k { v with cont := c })
      | .throws c => .throws (σ.set k { v with cont := c })
      | .ub => .ub
    else .ub

/-- One statement, with assignments in place as they are. -/
def MvStmt.runLive (g : FCfg α) (σ : List (MvVar α)) : MvStmt α → Out (List (MvVar α))
  | .assign k e overlap => if g.force || overlap then mvAssign g true σ k e else liveAssign g σ k e
  | .noalias k e => liveAssign g σ k e
  | s => s.run g σ

/-- A program. -/
def mvRunLive (g : FCfg α) : List (MvStmt α) → List (MvVar α) → Out (List (MvVar α))
  | [], σ => .ok σ
  | s :: r, σ => match s.runLive g σ with
    | .ok σ => mvRunLive g r σ
    | .throws σ => .throws σ
    | .ub => .ub

end Xt
