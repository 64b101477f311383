import Verif.Model.Strides
import Verif.Model.Chunked
import Verif.Spec.Index
/-!
# Model: expressions of optional values (optional/xoptional.hpp, optional/xoptional_assembly*.hpp)

Such an expression is evaluated in two ways.  Element access applies the functions to `xtl::xoptional` elements.
Assignment splits the expression into an expression of values and one of flags and assigns both.

`xtl` is not part of the repository: that its functions on optionals are present exactly when all arguments are, and then
apply the plain function, is assumed (`liftOp`).
-/

namespace Xt
open Spec

variable {α : Type}

/-- The element of a storage with given strides — containers/xcontainer.hpp:665-703.  Outside the storage: undefined. -/
def elemAt {β : Type} (strides : List Int) (storage : List β) (idx : List Int) : Res β :=
  if elementOffset strides idx < 0 then .ub else orUb storage[(elementOffset strides idx).toNat]?

/-- A container of optionals or an assembly of values and flags.  Access to an element uses the strides `accV` and `accF`,
    the containers given by `value()` and `has_value()` have the strides `splV` and `splF`. -/
structure OptLeaf (α : Type) where
  vals : List α
  flags : List Bool
  accV : List Int
  accF : List Int
  splV : List Int
  splF : List Int

/-- The strides of the adaptor that `value()` and `has_value()` of a container construct from the storage, the shape and
    nothing else: those of the static layout, row-major if that is dynamic — optional/xoptional.hpp:935-957,
    containers/xarray.hpp:574-581, containers/xcontainer.hpp:1010-1013, 1030-1047. -/
def adaptorStrides (L : Layout) (shape : List Nat) : List Int :=
  (computeStrides L (if L = .dynamic then .row_major else L) shape).1

/-- `xarray_optional`, `xtensor_optional`: a container over a storage of optionals, of static layout `L` and layout `l` —
    optional/xoptional.hpp:308-470, 930-958. -/
def OptLeaf.container (L l : Layout) (shape : List Nat) (vals : List α) (flags : List Bool) : OptLeaf α :=
  { vals, flags
    accV := (computeStrides L l shape).1
    accF := (computeStrides L l shape).1
    splV := adaptorStrides L shape
    splF := adaptorStrides L shape }

/-- `xoptional_assembly`: two containers, each with its shape and strides, given out as they are —
    optional/xoptional_assembly_base.hpp:479-500, 929-965, optional/xoptional_assembly.hpp:585-620. -/
def OptLeaf.assembly (vstrides fstrides : List Int) (vals : List α) (flags : List Bool) : OptLeaf α :=
  { vals, flags, accV := vstrides, accF := fstrides, splV := vstrides, splF := fstrides }

/-- `xoptional_assembly(const VE&)` — optional/xoptional_assembly.hpp:369-377. -/
def OptLeaf.ofValues (L l : Layout) (shape : List Nat) (vals : List α) : OptLeaf α :=
  .assembly (computeStrides L l shape).1 (computeStrides L l shape).1 vals
    (List.replicate (computeStrides L l shape).2.toNat true)

/-- `xoptional_assembly(VE&&)`: the flags take the shape of the container whose contents were just moved away —
    optional/xoptional_assembly.hpp:379-390.  The shape of a moved `xarray` is empty (its `svector` was swapped with an
    empty one, containers/xstorage.hpp:894-899), the shape of a moved `xtensor` is unchanged. -/
def OptLeaf.ofMovedValues (L l : Layout) (shape movedShape : List Nat) (vals : List α) : OptLeaf α :=
  .assembly (computeStrides L l shape).1 (computeStrides L l movedShape).1 vals
    (List.replicate (computeStrides L l movedShape).2.toNat true)

/-- Expressions of optional values. `plain` and `pscalar` are operands without flags; `view` stands for the views,
    broadcasts and index views, which read the element of the operand at a function of the index; `red` is a lazy
    reduction, with the indices that go into an element.  A function has a functor `f`; `f0` is what a default-constructed
    functor of the same type computes. -/
inductive OExpr (α : Type)
  | opt (c : OptLeaf α)
  | plain (strides : List Int) (vals : List α)
  | oscalar (v : α) (has : Bool)
  | pscalar (v : α)
  | fn (f f0 : List α → Option α) (args : List (OExpr α))
  | view (g : List Int → List Int) (e : OExpr α)
  | red (f : α → α → Option α) (init : α) (has : Bool) (ix : List Int → List (List Int)) (e : OExpr α)

/-- The values of optionals that are all present. -/
def allPresent : List (Option α) → Option (List α)
  | [] => some []
  | o :: os => o.bind fun v => (allPresent os).map (v :: ·)

/-- A plain function on optionals: assumed of `xtl`. -/
def liftOp (f : List α → Option α) (os : List (Option α)) : Res (Option α) :=
  match allPresent os with
  | none => .ok none
  | some vs => (orUb (f vs)).map some

mutual
/-- Element access — optional/xoptional_assembly_base.hpp:479-500, core/xfunction.hpp:640-660, and the access functions
    of the views and reducers. -/
def OExpr.access : OExpr α → List Int → Res (Option α)
  | .opt c, idx =>
    (elemAt c.accV c.vals idx).bind fun v => (elemAt c.accF c.flags idx).map fun b => if b then some v else none
  | .plain st vs, idx => (elemAt st vs idx).map some
  | .oscalar v b, _ => .ok (if b then some v else none)
  | .pscalar v, _ => .ok (some v)
  | .fn f _ args, idx => (OExpr.accesses args idx).bind fun os => liftOp f os
  | .view g e, idx => OExpr.access e (g idx)
  | .red f i b ix e, idx =>
    (ix idx).foldl (fun (r : Res (Option α)) (j : List Int) => r.bind fun a => (OExpr.access e j).bind fun x =>
      liftOp (fun vs => match vs with
        | [u, v] => f u v
        | _ => none) [a, x]) (.ok (if b then some i else none))
/-- Of all operands. -/
def OExpr.accesses : List (OExpr α) → List Int → Res (List (Option α))
  | [], _ => .ok []
  | e :: es, idx => (OExpr.access e idx).bind fun o => (OExpr.accesses es idx).map (o :: ·)
end

mutual
/-- An element of `value(e)`: the plain function of the values — optional/xoptional.hpp:76-150, 915-1270.  The functor of
    the value expression is a default-constructed one, not the one of the function (978-987). -/
def OExpr.valueAt : OExpr α → List Int → Res α
  | .opt c, idx => elemAt c.splV c.vals idx
  | .plain st vs, idx => elemAt st vs idx
  | .oscalar v _, _ => .ok v
  | .pscalar v, _ => .ok v
  | .fn _ f0 args, idx => (OExpr.valuesAt args idx).bind fun vs => orUb (f0 vs)
  | .view g e, idx => OExpr.valueAt e (g idx)
  | .red f i _ ix e, idx =>
    (ix idx).foldl (fun (r : Res α) (j : List Int) => r.bind fun a => (OExpr.valueAt e j).bind fun x => orUb (f a x)) (.ok i)
/-- Of all operands. -/
def OExpr.valuesAt : List (OExpr α) → List Int → Res (List α)
  | [], _ => .ok []
  | e :: es, idx => (OExpr.valueAt e idx).bind fun o => (OExpr.valuesAt es idx).map (o :: ·)
end

mutual
/-- An element of `has_value(e)`: all flags of the operands together, `optional_bitwise`; an operand without flags counts
    as ones — optional/xoptional.hpp:76-150, 163-216, 915-1270. -/
def OExpr.flagAt : OExpr α → List Int → Res Bool
  | .opt c, idx => elemAt c.splF c.flags idx
  | .plain _ _, _ => .ok true
  | .oscalar _ b, _ => .ok b
  | .pscalar _, _ => .ok true
  | .fn _ _ args, idx => OExpr.flagsAt args idx
  | .view g e, idx => OExpr.flagAt e (g idx)
  | .red _ _ b ix e, idx =>
    (ix idx).foldl (fun (r : Res Bool) (j : List Int) => r.bind fun a => (OExpr.flagAt e j).map fun x => a && x) (.ok b)
/-- `apply_impl`. -/
def OExpr.flagsAt : List (OExpr α) → List Int → Res Bool
  | [], _ => .ok true
  | e :: es, idx => (OExpr.flagAt e idx).bind fun b => (OExpr.flagsAt es idx).map fun c => b && c
end

/-- The assignment of an expression to a storage with strides, index by index. -/
def storeAll {β : Type} (strides : List Int) (get : List Int → Res β) (storage : Res (List β)) (idxs : List (List Nat)) :
    Res (List β) :=
  idxs.foldl (fun (r : Res (List β)) (i : List Nat) => r.bind fun l => (get (toInts i)).bind fun v =>
    if elementOffset strides (toInts i) < 0 ∨ (l.length : Int) ≤ elementOffset strides (toInts i) then .ub
    else .ok (l.set (elementOffset strides (toInts i)).toNat v)) storage

/-- `assign_data` for optionals, to a container of the shape of the expression: the values, then the flags, each into the
    container given by `value()` or `has_value()` of the left-hand side — optional/xoptional.hpp:1279-1293, 1342-1350. -/
def OptLeaf.assign (d : OptLeaf α) (shape : List Nat) (e : OExpr α) : Res (OptLeaf α) :=
  (storeAll d.splV e.valueAt (.ok d.vals) (rowIndices shape)).bind fun vs =>
    (storeAll d.splF e.flagAt (.ok d.flags) (rowIndices shape)).map fun fs => { d with vals := vs, flags := fs }

/-- `a(i) = missing`: the flag at an index. -/
def OptLeaf.setMissing (d : OptLeaf α) (idx : List Int) : Res (OptLeaf α) :=
  if elementOffset d.accF idx < 0 ∨ (d.flags.length : Int) ≤ elementOffset d.accF idx then .ub
  else .ok { d with flags := d.flags.set (elementOffset d.accF idx).toNat false }

end Xt
