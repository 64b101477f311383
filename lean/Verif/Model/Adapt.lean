import Verif.Model.Container
import Verif.Spec.Index
/-!
# Model of `adapt` — containers/xadapt.hpp, with the adaptors of containers/xarray.hpp:538-664 and
containers/xtensor.hpp:596-725, and the buffers of containers/xbuffer_adaptor.hpp

`mem` is the memory of the program that raw pointers point into, cell by cell; a pointer is the
number of its cell.  A sequence adapted by reference is the value the user's object has at the
moment, so what happens to it is what happens to the user's object; adapted from an rvalue it is the
adaptor's own.  Smart pointers and `acquire_ownership` differ from plain pointers in what happens to
the memory at the end (C70); `acquire_ownership` also in that it can be resized, which is left out.
`XTENSOR_ASSERT` is a no-op.  `d` is `XTENSOR_DEFAULT_LAYOUT`.
-/

namespace Xt

/-- What an adaptor stores its elements in: a resizable sequence such as `std::vector`, a
`std::array`, a constant sequence, or an `xbuffer_adaptor` without ownership holding a pointer `p`
and a size `m` (containers/xbuffer_adaptor.hpp:46-90). -/
inductive AStore (α : Type)
  | vec (l : List α)
  | arr (l : List α)
  | const (l : List α)
  | raw (p m : Nat)
  deriving Repr, DecidableEq

/-- `storage().size()` — containers/xbuffer_adaptor.hpp:633-636 for a pointer. -/
def AStore.count {α : Type} : AStore α → Nat
  | .vec l => l.length
  | .arr l => l.length
  | .const l => l.length
  | .raw _ m => m

/-- `detail::resize_data_container` — containers/xcontainer.hpp:964-976, with `resize_container`
(utils/xutils.hpp:353-364): `std::vector::resize` keeps the first elements and appends values `v`,
a `std::array` and a constant sequence are left alone whatever the size, and
`xbuffer_storage::resize` (containers/xbuffer_adaptor.hpp:639-645) throws when the size differs. -/
def AStore.resize {α : Type} (v : α) (s : AStore α) (n : Nat) : Res (AStore α) :=
  match s with
  | .vec l => .ok (.vec (l.take n ++ List.replicate (n - l.length) v))
  | .arr l => .ok (.arr l)
  | .const l => .ok (.const l)
  | .raw p m => if n ≠ m then .throws else .ok (.raw p m)

/-- `storage()[o]` read; `none` outside the sequence or outside the memory. -/
def AStore.read {α : Type} (mem : List α) (s : AStore α) (o : Int) : Option α :=
  match s with
  | .vec l => if o < 0 then none else l[o.toNat]?
  | .arr l => if o < 0 then none else l[o.toNat]?
  | .const l => if o < 0 then none else l[o.toNat]?
  | .raw p _ => if (p : Int) + o < 0 then none else mem[((p : Int) + o).toNat]?

/-- Assignment to cell `o` of a sequence; `none` outside. -/
def cellSet {α : Type} (l : List α) (o : Int) (x : α) : Option (List α) :=
  if 0 ≤ o ∧ o < l.length then some (l.set o.toNat x) else none

/-- `storage()[o] = x`: the memory and the storage afterwards; `none` is undefined.  A constant
sequence has no such assignment. -/
def AStore.write {α : Type} (mem : List α) (s : AStore α) (o : Int) (x : α) : Option (List α × AStore α) :=
  match s with
  | .vec l => (cellSet l o x).map fun l' => (mem, .vec l')
  | .arr l => (cellSet l o x).map fun l' => (mem, .arr l')
  | .const _ => none
  | .raw p m => (cellSet mem ((p : Int) + o) x).map fun mem' => (mem', .raw p m)

/-- Data members of an `xarray_adaptor`/`xtensor_adaptor`: static layout `L`, `m_layout`, `m_shape`,
`m_strides`, `m_backstrides` (containers/xcontainer.hpp:325-329) and `m_storage`. -/
structure Adp (α : Type) where
  L : Layout
  layout : Layout
  shape : List Nat
  strides : List Int
  backstr : List Int
  store : AStore α
  deriving Repr, DecidableEq

variable {α : Type}

/-- `a(args...)` — containers/xcontainer.hpp:438-445. -/
def Adp.read (mem : List α) (a : Adp α) (args : List Int) : Option α :=
  a.store.read mem (dataOffset a.strides false args)

/-- `a(args...) = x`. -/
def Adp.write (mem : List α) (a : Adp α) (args : List Int) (x : α) : Option (List α × Adp α) :=
  (a.store.write mem (dataOffset a.strides false args) x).map fun r => (r.1, { a with store := r.2 })

/-- Last step of the resizes: the storage is resized after the other members are written, so they
keep their new values when that throws. -/
def Adp.resizeStore (v : α) (a : Adp α) (n : Nat) : Out (Adp α) :=
  match a.store.resize v n with
  | .ok s => .ok { a with store := s }
  | .throws => .throws a
  | .ub => .ub

/-- `resize(shape, force)` — containers/xcontainer.hpp:1000-1021. -/
def Adp.resize (d : Layout) (v : α) (a : Adp α) (shape : List Nat) (force : Bool) : Out (Adp α) :=
  if a.shape ≠ shape ∨ force = true then
    let layout := if a.L = .dynamic ∧ a.layout = .dynamic then d else a.layout
    let r := computeStrides a.L layout shape
    Adp.resizeStore v { a with layout := layout, shape := shape, strides := r.1,
                               backstr := backstrides shape r.1 } r.2.toNat
  else .ok a

/-- `resize(shape, l)` — containers/xcontainer.hpp:1030-1047. -/
def Adp.resizeLayout (d : Layout) (v : α) (a : Adp α) (shape : List Nat) (l : Layout) : Out (Adp α) :=
  if a.L ≠ .dynamic ∧ l ≠ a.L then .throws a
  else Adp.resize d v { a with layout := l } shape true

/-- `resize(shape, strides)` — containers/xcontainer.hpp:1056-1077: the storage is resized to the
product of the extents, whatever the strides. -/
def Adp.resizeStrides (v : α) (a : Adp α) (shape : List Nat) (strides : List Int) : Out (Adp α) :=
  if a.L ≠ .dynamic then .throws a
  else
    let st := adaptStrides shape strides
    Adp.resizeStore v { a with shape := shape, strides := st, backstr := backstrides shape st,
                               layout := .dynamic } (computeSize shape)

/-- An object whose constructor threw does not exist. -/
def Out.built {σ : Type} : Out σ → Res σ
  | .ok s => .ok s
  | .throws _ => .throws
  | .ub => .ub

/-- The adaptor before its constructor's body: `base_type()` and `m_storage(storage)`.  An
`xarray_adaptor` has no axes, an `xtensor_adaptor` `n` axes of extent 0 — containers/xcontainer.hpp:850-857. -/
def adpStart (L : Layout) (n : Nat) (s : AStore α) : Adp α :=
  { L := L, layout := L, shape := List.replicate n 0, strides := List.replicate n 0,
    backstr := List.replicate n 0, store := s }

/-- `xarray_adaptor(storage, shape, l)` and `xtensor_adaptor(storage, shape, l)` —
containers/xarray.hpp:574-581, containers/xtensor.hpp:635-643. -/
def adpLayout (d : Layout) (v : α) (L l : Layout) (n : Nat) (s : AStore α) (shape : List Nat) : Res (Adp α) :=
  (Adp.resizeLayout d v (adpStart L n s) shape l).built

/-- `xarray_adaptor(storage, shape, strides)` and `xtensor_adaptor(storage, shape, strides)` —
containers/xarray.hpp:590-601, containers/xtensor.hpp:652-663. -/
def adpStrides (v : α) (L : Layout) (n : Nat) (s : AStore α) (shape : List Nat) (strides : List Int) :
    Res (Adp α) :=
  (Adp.resizeStrides v (adpStart L n s) shape strides).built

/-- Axes of the adaptor before its constructor's body: `rank` is `none` for an `xarray_adaptor`. -/
def startAxes (rank : Option Nat) : Nat := rank.getD 0

/-- `adapt<L>(container, shape, l)` — containers/xadapt.hpp:79-90 (`xarray_adaptor`, `rank = none`),
281-293 (`xtensor_adaptor`). -/
def adaptSeq (d : Layout) (v : α) (L l : Layout) (rank : Option Nat) (s : AStore α) (shape : List Nat) :
    Res (Adp α) := adpLayout d v L l (startAxes rank) s shape

/-- `adapt<L>(container, l)` — containers/xadapt.hpp:264-270: one axis as long as the container. -/
def adaptFlat (d : Layout) (v : α) (L l : Layout) (s : AStore α) : Res (Adp α) :=
  adpLayout d v L l 1 s [s.count]

/-- `adapt<L>(pointer, shape, l)` — containers/xadapt.hpp:100-112, 303-315, and
`adapt_smart_ptr<L>(smart_ptr, shape, l)` — containers/xadapt.hpp:686-695, 784-800: the size of the
buffer is computed from the shape. -/
def adaptPtr (d : Layout) (v : α) (L l : Layout) (rank : Option Nat) (p : Nat) (shape : List Nat) :
    Res (Adp α) := adpLayout d v L l (startAxes rank) (.raw p (computeSize shape)) shape

/-- `adapt<L>(pointer, size, no_ownership(), shape, l)` — containers/xadapt.hpp:153-175, 381-405. -/
def adaptBuf (d : Layout) (v : α) (L l : Layout) (rank : Option Nat) (p size : Nat) (shape : List Nat) :
    Res (Adp α) := adpLayout d v L l (startAxes rank) (.raw p size) shape

/-- `adapt<L>(c_array, shape, l)` — containers/xadapt.hpp:221-230, 452-461: calls
`adapt(&c_array[0], N, no_ownership(), shape, l)` without its own `L`, so the adaptor's static layout
is the default one. -/
def adaptCArray (d : Layout) (v : α) (_L l : Layout) (rank : Option Nat) (p size : Nat) (shape : List Nat) :
    Res (Adp α) := adaptBuf d v d l rank p size shape

/-- `adapt<L>(container, {n0, n1, ...})` — containers/xadapt.hpp:503-508: calls `adapt(container, shape)`
without its own `L`. -/
def adaptSeqBraces (d : Layout) (v : α) (_L : Layout) (s : AStore α) (shape : List Nat) : Res (Adp α) :=
  adaptSeq d v d d (some shape.length) s shape

/-- `adapt<L>(pointer, {n0, n1, ...})` — containers/xadapt.hpp:503-508. -/
def adaptPtrBraces (d : Layout) (v : α) (_L : Layout) (p : Nat) (shape : List Nat) : Res (Adp α) :=
  adaptPtr d v d d (some shape.length) p shape

/-- `adapt(container, shape, strides)` — containers/xadapt.hpp:123-138, 326-341. -/
def adaptSeqStrides (v : α) (rank : Option Nat) (s : AStore α) (shape : List Nat) (strides : List Int) :
    Res (Adp α) := adpStrides v .dynamic (startAxes rank) s shape strides

/-- `adapt(pointer, size, no_ownership(), shape, strides)` — containers/xadapt.hpp:190-211, 420-441, and
`adapt(c_array, shape, strides)` — containers/xadapt.hpp:241-250, 472-481. -/
def adaptBufStrides (v : α) (rank : Option Nat) (p size : Nat) (shape : List Nat) (strides : List Int) :
    Res (Adp α) := adpStrides v .dynamic (startAxes rank) (.raw p size) shape strides

/-! ## Assignment to an adaptor -/

/-- Elements written one after the other, each through `operator()`; `none` is undefined. -/
def Adp.writeEach (mem : List α) (a : Adp α) : List (List Nat × α) → Option (List α × Adp α)
  | [] => some (mem, a)
  | w :: ws => (a.write mem (Spec.toInts w.1) w.2).bind fun r => Adp.writeEach r.1 r.2 ws

/-- Outcome of an assignment: memory and adaptor, after it returned or threw, or undefined. -/
inductive AOut (α : Type)
  | ok (mem : List α) (a : Adp α)
  | throws (mem : List α) (a : Adp α)
  | ub
  deriving Repr, DecidableEq

/-- `a = e` where `e` refers to no memory of `a`, and `noalias(a) = e` — core/xsemantic.hpp:635-638,
xexpression_assigner::assign_xexpression and resize (core/xassign.hpp:480-487, 569-607): `a.resize(e.shape())`, then every
element is written.  `e` is given by its shape and elements; the order of the writes (C24) is taken to
be row-major. -/
def Adp.assign (d : Layout) (v : α) (mem : List α) (a : Adp α) (shape : List Nat) (e : List Nat → α) : AOut α :=
  match a.resize d v shape false with
  | .ok a' =>
    match a'.writeEach mem ((Spec.rowIndices shape).map fun (idx : List Nat) => (idx, e idx)) with
    | some r => .ok r.1 r.2
    | none => .ub
  | .throws a' => .throws mem a'
  | .ub => .ub

/-- Assignment of the temporary's sequence to the storage: a vector is moved into, for a pointer
`xbuffer_adaptor::operator=(temporary_type&&)` (containers/xbuffer_adaptor.hpp:1058-1064) checks the
size and copies.  `std::array` and constant storages are left out. -/
def AStore.takeSeq (mem : List α) (s : AStore α) (xs : List α) : Res (List α × AStore α) :=
  match s with
  | .vec _ => .ok (mem, .vec xs)
  | .raw p m =>
    if xs.length ≠ m then .throws
    else if p + m ≤ mem.length then .ok (mem.take p ++ xs ++ mem.drop (p + m), .raw p m) else .ub
  | _ => .ub

/-- `operator=(temporary_type&& rhs)` — containers/xarray.hpp:621-629, containers/xtensor.hpp:683-691:
shape, strides and backstrides are taken, then the storage; `m_layout` is left as it was. -/
def Adp.takeTemp (mem : List α) (a : Adp α) (tmp : Cont α) : AOut α :=
  let a' : Adp α := { a with shape := tmp.shape, strides := tmp.strides, backstr := tmp.backstr }
  match a.store.takeSeq mem tmp.storage with
  | .ok r => .ok r.1 { a' with store := r.2 }
  | .throws => .throws mem a'
  | .ub => .ub

/-- The temporary that `a = e` builds when `e` may refer to `a`'s memory: an `xarray_container` with the
adaptor's static layout (containers/xarray.hpp:187), default-constructed, resized and filled —
core/xsemantic.hpp:630-634.  Its elements are `e`'s at the places its strides give. -/
def tempOf (d : Layout) (L : Layout) (shape : List Nat) (e : List Nat → α) : Cont α :=
  let layout := if L = .dynamic then d else L
  let r := computeStrides L layout shape
  { L := L, layout := layout, shape := shape, strides := r.1, backstr := backstrides shape r.1,
    storage := if L = .row_major ∨ layout = .row_major then (Spec.rowIndices shape).map e
               else (Spec.colIndices shape).map e }

/-- `a = e` where `e` may refer to `a`'s memory — core/xsemantic.hpp:630-634, 652-655. -/
def Adp.assignVia (d : Layout) (mem : List α) (a : Adp α) (shape : List Nat) (e : List Nat → α) : AOut α :=
  a.takeTemp mem (tempOf d a.L shape e)

/-- `a = b` for two adaptors of the same type — containers/xarray.hpp:605-611, containers/xtensor.hpp:667-673:
all members are copied; `m_storage = rhs.m_storage` copies a vector's elements and, for a pointer,
the pointer and the size (defaulted `xbuffer_adaptor::operator=`, containers/xbuffer_adaptor.hpp:388). -/
def Adp.copyFrom (a b : Adp α) : Adp α := { b with L := a.L }

/-- `a.reset_buffer(pointer, size)` — containers/xarray.hpp:658-664: pointer and size are replaced, the
shape stays. -/
def Adp.resetBuffer (a : Adp α) (p size : Nat) : Adp α := { a with store := .raw p size }

/-- `detail::dump_npy_stream(a)` — io/xnpy.hpp:705-728: the `fortran_order` flag, set from the layout,
and the first `compute_size(shape)` cells from `data()`. -/
def Adp.npyDump (mem : List α) (a : Adp α) : Bool × List (Option α) :=
  (decide (a.layout = .column_major ∧ a.shape.length > 1),
   (List.range (computeSize a.shape)).map fun (i : Nat) => a.store.read mem i)

end Xt
