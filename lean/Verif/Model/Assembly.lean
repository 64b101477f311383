import Verif.Model.Container
import Verif.Model.Chunked
import Verif.Model.Broadcast
import Verif.Model.Braces
/-!
# Model: assemblies of values and flags

Source: optional/xoptional_assembly.hpp, optional/xoptional_assembly_base.hpp,
optional/xoptional_assembly_storage.hpp (under /repo/include/xtensor).

Both halves are `xarray` or `xtensor` (`Cont`).  `xtl::xoptional` is not part of the repository: an optional is taken to
be a pair of a value and a flag, assigned as a pair, seen as missing when the flag is false, and two optionals to be equal
when both are missing or both are present with equal values.
-/

namespace Xt
open Spec

/-- `m_value` and `m_has_value` — optional/xoptional_assembly.hpp:137-139; `m_storage` holds references to their two
storages and adds no state. -/
structure Asm (α : Type) where
  v : Cont α
  f : Cont Bool
  deriving Repr, DecidableEq

/-- What is seen of an `xtl::xoptional`. -/
def seen {α : Type} (x : α) (b : Bool) : Option α := if b then some x else none

/-- One call on the values, then the same on the flags; an exception from the second leaves the first done —
optional/xoptional_assembly_base.hpp:385-440. -/
def Asm.both {α : Type} (a : Asm α) (ov : Out (Cont α)) (of : Out (Cont Bool)) : Out (Asm α) :=
  match ov with
  | .ub => .ub
  | .throws c => .throws ⟨c, a.f⟩
  | .ok c => match of with
    | .ub => .ub
    | .throws g => .throws ⟨c, g⟩
    | .ok g => .ok ⟨c, g⟩

/-- `resize` (three overloads) and `reshape` (two), all allocations succeeding —
optional/xoptional_assembly_base.hpp:385-440. -/
def Asm.run {α : Type} (d : Layout) (fv : Nat → List α) (ff : Nat → List Bool) (a : Asm α) (o : Op) : Out (Asm α) :=
  a.both (o.run d fv a.v) (o.run d ff a.f)

/-- `resize(shape, force)` when one of the allocations may fail — optional/xoptional_assembly_base.hpp:385-391. -/
def Asm.resizeAlloc {α : Type} (d : Layout) (fv : Nat → List α) (ff : Nat → List Bool) (okV okF : Bool) (a : Asm α)
    (shape : List Nat) (force : Bool) : Out (Asm α) :=
  a.both (a.v.resize d fv okV shape force) (a.f.resize d ff okF shape force)

/-- A history of calls, exceptions caught. -/
def runAsm {α : Type} (d : Layout) (fv : Nat → List α) (ff : Nat → List Bool) (a : Asm α) : List Op → Option (Asm α)
  | [] => some a
  | o :: os => match a.run d fv ff o with
    | .ok a' => runAsm d fv ff a' os
    | .throws a' => runAsm d fv ff a' os
    | .ub => none

/-- `xarray(shape, l)`, `xtensor(shape, l)`: default construction with `n` axes (0 for `xarray`), then `resize(shape, l)` —
containers/xarray.hpp:292-297, containers/xtensor.hpp:441-446. -/
def contOfShape {α : Type} (d : Layout) (fresh : Nat → List α) (L : Layout) (n : Nat) (v : α) (shape : List Nat)
    (l : Layout) : Res (Cont α) :=
  match (Cont.default L n v).resizeLayout d fresh true shape l with
  | .ok c => .ok c
  | .throws _ => .throws
  | .ub => .ub

/-- `xarray(shape, value, l)`, `xtensor(shape, value, l)`: the same, then `std::fill(m_storage.begin(), m_storage.end(),
value)` — containers/xarray.hpp:306-317, containers/xtensor.hpp:455-466. -/
def contFilled {α : Type} (d : Layout) (fresh : Nat → List α) (L : Layout) (n : Nat) (x : α) (shape : List Nat)
    (l : Layout) : Res (Cont α) :=
  (contOfShape d fresh L n x shape l).map fun (c : Cont α) => { c with storage := c.storage.map fun _ => x }

/-- `xoptional_assembly(shape, value, l)` — optional/xoptional_assembly.hpp:307-317. -/
def asmFilled {α : Type} (d : Layout) (fv : Nat → List α) (ff : Nat → List Bool) (Lv Lf : Layout) (n : Nat) (x : α)
    (b : Bool) (shape : List Nat) (l : Layout) : Res (Asm α) :=
  (contFilled d fv Lv n x shape l).bind fun (c : Cont α) =>
    (contFilled d ff Lf n b shape l).map fun (g : Cont Bool) => ⟨c, g⟩

/-- `xoptional_assembly(shape, l)`; the default of `l` is the static layout of the values —
optional/xoptional_assembly.hpp:291-297, optional/xoptional_assembly_base.hpp:81.  `x`, `b`: what a default-constructed
0-dimensional array holds. -/
def asmOfShape {α : Type} (d : Layout) (fv : Nat → List α) (ff : Nat → List Bool) (Lv Lf : Layout) (n : Nat) (x : α)
    (b : Bool) (shape : List Nat) (l : Layout) : Res (Asm α) :=
  (contOfShape d fv Lv n x shape l).bind fun (c : Cont α) =>
    (contOfShape d ff Lf n b shape l).map fun (g : Cont Bool) => ⟨c, g⟩

/-- `xoptional_assembly()` — optional/xoptional_assembly.hpp:277-283. -/
def asmDefault {α : Type} (Lv Lf : Layout) (n : Nat) (x : α) (b : Bool) : Asm α :=
  ⟨Cont.default Lv n x, Cont.default Lf n b⟩

/-- `xoptional_assembly(const VE&)`: the flags are built from the shape and the layout of the values —
optional/xoptional_assembly.hpp:369-375. -/
def asmOfValues {α : Type} (d : Layout) (ff : Nat → List Bool) (Lf : Layout) (n : Nat) (c : Cont α) : Res (Asm α) :=
  (contFilled d ff Lf n true c.shape c.layout).map fun (g : Cont Bool) => ⟨c, g⟩

/-- `xoptional_assembly(ove, ofe)` with containers of the same types, `xoptional_assembly_adaptor(ve, fe)`: the two as they
are — optional/xoptional_assembly.hpp:398-405, 635-642. -/
def asmOfPair {α : Type} (c : Cont α) (g : Cont Bool) : Asm α := ⟨c, g⟩

/-- `operator()(args...)`, and `element`, `operator[]`, which go through the same functions of the two containers —
optional/xoptional_assembly_base.hpp:479-497, 589-634, 729-748. -/
def Asm.get {α : Type} (a : Asm α) (args : List Int) : Res (Option α) :=
  (orUb (a.v.elem? args)).bind fun (x : α) => (orUb (a.f.elem? args)).map fun (b : Bool) => seen x b

/-- `at(args...)` — optional/xoptional_assembly_base.hpp:508-529, core/xaccessible.hpp:173-179. -/
def Asm.at {α : Type} (a : Asm α) (args : List Int) : Res (Option α) :=
  if checkAccess a.v.shape false args = false then .throws
  else (orUb (a.v.elem? args)).bind fun (x : α) =>
    if checkAccess a.f.shape false args = false then .throws
    else (orUb (a.f.elem? args)).map fun (b : Bool) => seen x b

/-- `flat(i)`, `storage()[i]`, `*(linear_begin() + i)` — optional/xoptional_assembly_base.hpp:705-720,
optional/xoptional_assembly_storage.hpp:284-294, 511-538. -/
def Asm.flat {α : Type} (a : Asm α) (i : Nat) : Res (Option α) :=
  (orUb a.v.storage[i]?).bind fun (x : α) => (orUb a.f.storage[i]?).map fun (b : Bool) => seen x b

/-- All results, in order. -/
def Res.all {β : Type} : List (Res β) → Res (List β)
  | [] => .ok []
  | r :: rs => r.bind fun (x : β) => (Res.all rs).map fun (xs : List β) => x :: xs

/-- `linear_begin()` to `linear_end()`; iterators compare by the values alone —
optional/xoptional_assembly_base.hpp:826-848, optional/xoptional_assembly_storage.hpp:546-556. -/
def Asm.linear {α : Type} (a : Asm α) : Res (List (Option α)) :=
  .all ((List.range a.v.storage.length).map fun (i : Nat) => a.flat i)

/-- `begin<row_major>()` to `end<row_major>()`: two steppers moved together over the shape of the values —
optional/xoptional_assembly_base.hpp:898-926, 975-1046; what steppers visit is C22. -/
def Asm.each {α : Type} (a : Asm α) : Res (List (Option α)) :=
  .all ((rowIndices a.v.shape).map fun (idx : List Nat) => a.get (toInts idx))

/-- Assignment to one element of a container. -/
def Cont.put {α : Type} (c : Cont α) (args : List Int) (x : α) : Res (Cont α) :=
  (writeAt c.storage (dataOffset c.strides false args) x).map fun (s : List α) => { c with storage := s }

/-- `a(args...) = optional`: through the reference, a pair of references —
optional/xoptional_assembly_base.hpp:479-484. -/
def Asm.put {α : Type} (a : Asm α) (args : List Int) (x : α) (b : Bool) : Res (Asm α) :=
  (a.v.put args x).bind fun (c : Cont α) => (a.f.put args b).map fun (g : Cont Bool) => ⟨c, g⟩

/-- `fill(optional)`: `std::fill(linear_begin(), linear_end(), value)` — optional/xoptional_assembly_base.hpp:462-467. -/
def Asm.fill {α : Type} (a : Asm α) (x : α) (b : Bool) : Res (Asm α) :=
  (writeAll a.v.storage ((List.range a.v.storage.length).map fun (i : Nat) => ((i : Int), x))).bind fun (vs : List α) =>
    (writeAll a.f.storage ((List.range a.v.storage.length).map fun (i : Nat) => ((i : Int), b))).map fun (fs : List Bool) =>
      ⟨{ a.v with storage := vs }, { a.f with storage := fs }⟩

/-- Positions of the iterator in the storages of the two halves: `linear_begin()` if both static layouts are row-major,
`begin<row_major>()` otherwise — optional/xoptional_assembly.hpp:425-428. -/
def Asm.braceSlots {α : Type} (a : Asm α) : List (Int × Int) :=
  if a.v.L = .row_major ∧ a.f.L = .row_major then
    (List.range a.v.storage.length).map fun (i : Nat) => ((i : Int), (i : Int))
  else (rowIndices a.v.shape).map fun (idx : List Nat) =>
    (dataOffset a.v.strides false (toInts idx), dataOffset a.f.strides false (toInts idx))

/-- `xoptional_assembly(nested_initializer_list_t<value_type, n>)` — optional/xoptional_assembly.hpp:251-269, 416-501;
`n₀` is 0 for `xarray`. -/
def asmOfBraces {α : Type} (d : Layout) (fv : Nat → List α) (ff : Nat → List Bool) (Lv Lf : Layout) (n₀ : Nat) (x₀ : α)
    (b₀ : Bool) (n : Nat) (t : Braces (α × Bool) n) : Res (Asm α) :=
  match (asmDefault Lv Lf n₀ x₀ b₀).run d fv ff (.resize (initShape n t) false) with
  | .ub => .ub
  | .throws _ => .throws
  | .ok a =>
    if a.braceSlots.length < (nestedCopy n t).length then .ub
    else (writeAll a.v.storage ((a.braceSlots.map fun (p : Int × Int) => p.1).zip
        ((nestedCopy n t).map fun (e : α × Bool) => e.1))).bind fun (vs : List α) =>
      (writeAll a.f.storage ((a.braceSlots.map fun (p : Int × Int) => p.2).zip
        ((nestedCopy n t).map fun (e : α × Bool) => e.2))).map fun (fs : List Bool) =>
          ⟨{ a.v with storage := vs }, { a.f with storage := fs }⟩

/-- `broadcast_shape(shape, reuse_cache)`: the flags are asked only if the values broadcast trivially —
optional/xoptional_assembly_base.hpp:804-810.  The shape and the result; `none`: broadcast error. -/
def Asm.broadcastTo {α : Type} (a : Asm α) (out : List Nat) : Option (List Nat × Bool) :=
  match broadcastShape a.v.shape out with
  | none => none
  | some (s, false) => some (s, false)
  | some (s, true) => broadcastShape a.f.shape s

/-- Comparison of two optionals. -/
def optEq {α : Type} [DecidableEq α] : Option α → Option α → Bool
  | none, none => true
  | some x, some y => x == y
  | _, _ => false

/-- `lhs == rhs` of two expressions — core/xoperation.hpp:628-645; `std::equal` on the shapes is reached only for equal
dimensions, the elements only for equal shapes, in the order of the default layout, the first difference ends the loop. -/
def Asm.eqv {α : Type} [DecidableEq α] (a b : Asm α) : Res Bool :=
  if a.v.shape = b.v.shape then
    (rowIndices a.v.shape).foldl (fun (r : Res Bool) (idx : List Nat) => r.bind fun (q : Bool) =>
      if q then (a.get (toInts idx)).bind fun (x : Option α) => (b.get (toInts idx)).map fun (y : Option α) => optEq x y
      else .ok false) (.ok true)
  else .ok false

/-- `a.storage() == b.storage()` — optional/xoptional_assembly_storage.hpp:436-441. -/
def Asm.storageEq {α : Type} [DecidableEq α] (a b : Asm α) : Bool :=
  (a.v.storage == b.v.storage) && (a.f.storage == b.f.storage)

/-- `<` of two sequences: lexicographical (containers/xstorage.hpp:583-587). -/
def seqLt : List Int → List Int → Bool
  | _, [] => false
  | [], _ :: _ => true
  | x :: xs, y :: ys => if x < y then true else if y < x then false else seqLt xs ys

/-- `<` of two storages — optional/xoptional_assembly_storage.hpp:449-453. -/
def Asm.storageLt (a b : Asm Int) : Bool := seqLt a.v.storage b.v.storage && (a.f.storage == b.f.storage)

/-- `<=` of two storages; of the values: not greater — optional/xoptional_assembly_storage.hpp:455-460,
containers/xstorage.hpp:589-593. -/
def Asm.storageLe (a b : Asm Int) : Bool := !seqLt b.v.storage a.v.storage && (a.f.storage == b.f.storage)

end Xt
