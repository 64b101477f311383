import Verif.Model.Assembly
import Verif.Model.Stepper
import Verif.Model.Broadcast
/-!
# Model of `ravel` and `flatten` — misc/xmanipulation.hpp:381-448, with `xiterator_adaptor` and
`xiterator_owner_adaptor` of containers/xbuffer_adaptor.hpp:413-606, 1072-1260 and `xtensor_view` of
containers/xtensor.hpp:279-384, 737-849

The flattened expressions are containers: a variable of the program, which the view refers to by iterators, or a
temporary, which the view owns.  Containers keep their elements in a `uvector`, so `linear_begin()` is a pointer.
Resizing a variable while a view refers to it invalidates the iterators as it does any iterator; that is left out.
`XTENSOR_ASSERT` is a no-op.  `d` is `XTENSOR_DEFAULT_LAYOUT`.
-/

namespace Xt

/-- What the stepper of a container uses (containers/xcontainer.hpp:694-708), the storage starting at 0. -/
def Cont.arr {α : Type} (c : Cont α) : StridedArr := ⟨c.shape, c.strides, c.backstr, 0⟩

/-- `*(c.begin<L>() + k)` as a position in the storage: `linear_begin()` when `L` is the static layout of the
container, else an `xiterator` over its stepper — core/xiterable.hpp:947-959, core/xiterator.hpp:1136-1150. -/
def flatPos {α : Type} (L : Layout) (c : Cont α) (k : Int) : Int :=
  if c.L = L then k
  else ((XIter.mkBegin (xstepperBegin c.arr) c.shape).add (xstepperOps c.arr 0) L c.shape k).st

/-- What the adaptor holds: the iterators of a variable (`xiterator_adaptor`, containers/xbuffer_adaptor.hpp:440-481) or
a container and its iterators (`xiterator_owner_adaptor`, 519-562).  The iterators of an owned container are computed
again by `init_iterators` (1228-1234) whenever the adaptor is copied or moved, so they are always those of
`m_container`. -/
inductive FlatSrc (α : Type)
  | ref (x : Nat)
  | own (c : Cont α)
  deriving Repr, DecidableEq

/-- The view returned by `ravel<L>`: the adaptor with `m_size`, and the shape and strides of the `xtensor_view`. -/
structure FlatV (α : Type) where
  L : Layout
  src : FlatSrc α
  count : Nat
  shape : List Nat
  strides : List Int
  deriving Repr, DecidableEq

/-- `ravel<L>(e)` — misc/xmanipulation.hpp:415-427: the adaptor of `size()` elements, and an `xtensor_view` of static
layout `L` over a pointer, `dynamic` over another iterator, whose constructor (containers/xtensor.hpp:765-772) calls
`resize({size}, layout)` (containers/xcontainer.hpp:1030-1047, 1000-1021); the adaptor's `resize` throws on another
size (containers/xbuffer_adaptor.hpp:1104-1111, 1199-1206). -/
def ravelView {α : Type} (d L : Layout) (src : FlatSrc α) (c : Cont α) : Res (FlatV α) :=
  let vl := if c.L = L then L else .dynamic
  let r := computeStrides vl (if vl = .dynamic then d else vl) [c.size]
  if r.2.toNat ≠ c.size then .throws else .ok ⟨L, src, c.size, [c.size], r.1⟩

/-- A program's containers and the flat views it has made. -/
structure FlatSt (α : Type) where
  vars : List (Cont α)
  flats : List (FlatV α)
  deriving Repr, DecidableEq

variable {α : Type}

/-- The container whose storage the view's iterators run over. -/
def FlatSt.cont (s : FlatSt α) : FlatSrc α → Option (Cont α)
  | .ref x => s.vars[x]?
  | .own c => some c

/-- A changed storage, in the variable or in the view that owns it. -/
def FlatSt.setCont (s : FlatSt α) (f : Nat) (v : FlatV α) (c : Cont α) : FlatSt α :=
  match v.src with
  | .ref x => { s with vars := s.vars.set x c }
  | .own _ => { s with flats := s.flats.set f { v with src := .own c } }

/-- `r(i)` read: `storage()[offset]` (containers/xcontainer.hpp:438-445), `data()[k]` in the adaptor
(containers/xbuffer_adaptor.hpp:873-883). -/
def FlatSt.get (s : FlatSt α) (f : Nat) (i : Int) : Res α :=
  orUb ((s.flats[f]?).bind fun (v : FlatV α) => (s.cont v.src).bind fun (c : Cont α) =>
    let p := flatPos v.L c (dataOffset v.strides false [i])
    if p < 0 then none else c.storage[p.toNat]?)

/-- Writing values through the adaptor at the positions given, in that order. -/
def FlatSt.write (s : FlatSt α) (f : Nat) (ws : FlatV α → List (Int × α)) : Res (FlatSt α) :=
  (orUb (s.flats[f]?)).bind fun (v : FlatV α) => (orUb (s.cont v.src)).bind fun (c : Cont α) =>
    (writeAll c.storage ((ws v).map fun (w : Int × α) => (flatPos v.L c w.1, w.2))).map fun (b : List α) =>
      s.setCont f v { c with storage := b }

/-- `r(i) = x`. -/
def FlatSt.put (s : FlatSt α) (f : Nat) (i : Int) (x : α) : Res (FlatSt α) :=
  s.write f fun (v : FlatV α) => [(dataOffset v.strides false [i], x)]

/-- `r = x` for a scalar: `std::fill(m_storage.begin(), m_storage.end(), x)` — containers/xtensor.hpp:824-830. -/
def FlatSt.fill (s : FlatSt α) (f : Nat) (x : α) : Res (FlatSt α) :=
  s.write f fun (v : FlatV α) => (List.range v.count).map fun (k : Nat) => ((k : Int), x)

/-- Elements of `broadcast(e, shape)` for an `e` with one axis: those of `e`, or its only element throughout —
views/xbroadcast.hpp:286-298, 344-351. -/
def bcValues (vals : List α) (n : Nat) : List α :=
  if vals.length = 1 then (List.replicate n vals).flatten else vals

/-- The elements of the right-hand side made from an expression with one axis and elements `vals`, assigned to a view of
shape `shape` — core/xsemantic.hpp:773-794: the expression as it is when the shapes agree, else
`broadcast(rhs, shape())`. -/
def flatRhs (shape : List Nat) (vals : List α) : Res (List α) :=
  if [vals.length] = shape then .ok vals
  else match broadcastShape [vals.length] shape with
    | none => .throws
    | some r => .ok (bcValues vals (computeSize r.1))

/-- `r = e` for an expression `e` with one axis and elements `vals` — core/xsemantic.hpp:622-641.  `ov` is what the
overlap test says of the right-hand side.  If it overlaps: the temporary, then
`std::copy(tmp.cbegin(), tmp.cend(), m_storage.begin())` — containers/xtensor.hpp:845-848.  If not, its elements depend
on nothing that is written: `assert_compatible_shape` (core/xassign.hpp:540-552), then the assignment loops, which store
the elements at their places (C24). -/
def FlatSt.assign (s : FlatSt α) (f : Nat) (ov : Bool) (vals : List α) : Res (FlatSt α) :=
  (orUb (s.flats[f]?)).bind fun (v : FlatV α) => (flatRhs v.shape vals).bind fun (tmp : List α) =>
    if !ov && !broadcastable [tmp.length] v.shape then .throws
    else s.write f fun _ => (tmp.zipIdx).map fun (p : α × Nat) => ((p.2 : Int), p.1)

/-- `r = q` for another view `q` of the same type — containers/xtensor.hpp:792-806, which copies shape, strides and
`m_storage`: iterators are copied, an owned container is copied by an `operator=` that returns nothing
(containers/xbuffer_adaptor.hpp:1158-1163, 1172-1177), which is undefined. -/
def FlatSt.assignView (s : FlatSt α) (f g : Nat) : Res (FlatSt α) :=
  (orUb (s.flats[g]?)).bind fun (w : FlatV α) =>
    match w.src with
    | .ref _ => .ok { s with flats := s.flats.set f w }
    | .own _ => .ub

/-- What a program does with containers and flat views. -/
inductive FlatOp (α : Type)
  /-- `auto r = ravel<L>(a)` for the variable `x` -/
  | ravel (L : Layout) (x : Nat)
  /-- `auto r = ravel<L>(temporary)` -/
  | ravelTemp (L : Layout) (c : Cont α)
  /-- `auto q = r`, `auto q = std::move(r)` -/
  | copy (f : Nat)
  | get (f : Nat) (i : Nat)
  | put (f : Nat) (i : Nat) (x : α)
  | fill (f : Nat) (x : α)
  | assign (f : Nat) (ov : Bool) (vals : List α)
  /-- `a(idx...)` -/
  | getVar (x : Nat) (idx : List Nat)
  /-- `a(idx...) = v` -/
  | putVar (x : Nat) (idx : List Nat) (v : α)
  deriving Repr

/-- One operation: the state afterwards and the value read, if any. -/
def FlatSt.step (d : Layout) (s : FlatSt α) : FlatOp α → Res (FlatSt α × Option α)
  | .ravel L x => (orUb (s.vars[x]?)).bind fun (c : Cont α) =>
      (ravelView d L (.ref x) c).map fun (v : FlatV α) => ({ s with flats := s.flats ++ [v] }, none)
  | .ravelTemp L c =>
      (ravelView d L (.own c) c).map fun (v : FlatV α) => ({ s with flats := s.flats ++ [v] }, none)
  | .copy f => (orUb (s.flats[f]?)).map fun (v : FlatV α) => ({ s with flats := s.flats ++ [v] }, none)
  | .get f i => (s.get f i).map fun (x : α) => (s, some x)
  | .put f i x => (s.put f i x).map fun (t : FlatSt α) => (t, none)
  | .fill f x => (s.fill f x).map fun (t : FlatSt α) => (t, none)
  | .assign f ov vals => (s.assign f ov vals).map fun (t : FlatSt α) => (t, none)
  | .getVar x idx => (orUb ((s.vars[x]?).bind fun (c : Cont α) => c.elem? (Spec.toInts idx))).map
      fun (v : α) => (s, some v)
  | .putVar x idx v => (orUb (s.vars[x]?)).bind fun (c : Cont α) =>
      (c.put (Spec.toInts idx) v).map fun (c' : Cont α) => ({ s with vars := s.vars.set x c' }, none)

/-- A program: the state afterwards and the values read. -/
def FlatSt.run (d : Layout) (s : FlatSt α) : List (FlatOp α) → Res (FlatSt α × List (Option α))
  | [] => .ok (s, [])
  | op :: ops => (s.step d op).bind fun (r : FlatSt α × Option α) =>
      (r.1.run d ops).map fun (q : FlatSt α × List (Option α)) => (q.1, r.2 :: q.2)

/-- `flatnonzero<L>(a)` — misc/xmanipulation.hpp:456-460: `nonzero(ravel<L>(a))[0]`, the positions along the only axis of
the flat view whose element is not zero, in order (`nonzero`, core/xoperation.hpp:860-905). -/
def flatnonzero (d L : Layout) (nz : α → Bool) (c : Cont α) : Res (List Nat) :=
  (ravelView d L (.ref 0) c).bind fun (v : FlatV α) =>
    (Res.all ((List.range v.count).map fun (i : Nat) => (FlatSt.mk [c] [v]).get 0 i)).map fun (vals : List α) =>
      (List.range v.count).filter fun (i : Nat) => ((vals[i]?).map nz).getD false

end Xt
