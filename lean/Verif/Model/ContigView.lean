import Verif.Model.View
import Verif.Model.Semantic
/-!
# Views that know their memory: contiguity, layout, linear and flat access, lifetime

`views/xview.hpp`: the compile-time test for contiguous views, the run-time layout, the strides taken
over from the expression below, linear iterators, `flat`, `data_element`, `fill`, `row`, `col`, and
what a copy of a view refers to.

Expressions here have a data interface: containers, and views of them without `keep` and `drop`.
Template arguments (the kinds of the slices, the static layout, the static dimension) are ordinary
arguments.  Memory is `Mem β` of `Model/Assign`.
-/

namespace Xt

/-- `is_xrange<slice>` — views/xview.hpp:76-85. -/
def Sl.isRange : Sl → Bool
  | .range _ _ => true
  | _ => false

/-- `is_xall_slice<slice>` — views/xview.hpp:87-95. -/
def Sl.isAll : Sl → Bool
  | .all _ => true
  | _ => false

/-- `is_strided_slice_impl<slice>` — views/xview.hpp:136-149. -/
def Sl.isStrided : Sl → Bool
  | .keep _ => false
  | .drop _ _ => false
  | _ => true

/-- `is_contiguous_view_impl<row_major, valid, all_seen, range_seen, slices>` —
views/xview.hpp:172-196. -/
def contigRow (valid allSeen rangeSeen : Bool) : List Sl → Bool
  | [] => valid
  | s :: S =>
    let allSeen' := allSeen || s.isAll
    contigRow (valid && (if allSeen' then s.isAll else !rangeSeen && (s.isInt || s.isRange))) allSeen'
      (rangeSeen || s.isRange) S

/-- `is_contiguous_view_impl<column_major, valid, int_seen, range_seen, slices>` —
views/xview.hpp:201-224. -/
def contigCol (valid intSeen rangeSeen : Bool) : List Sl → Bool
  | [] => valid
  | s :: S =>
    let intSeen' := intSeen || s.isInt
    contigCol (valid && (if intSeen' then s.isInt else !rangeSeen && (s.isAll || s.isRange))) intSeen'
      (s.isRange || rangeSeen) S

/-- `is_contiguous_view<E, S...>` for `E` with a data interface — views/xview.hpp:97-101 (other
layouts), 226-239; `sdim` is `static_dimension`, `none` for −1 (103-125). -/
def isContiguousView (L : Layout) (sdim : Option Nat) (S : List Sl) : Bool :=
  match L with
  | .row_major => contigRow true false false S
  | .column_major => sdim == some S.length && contigCol true false false S
  | _ => false

/-- `has_trivial_strides` — views/xview.hpp:412-413. -/
def trivialStrides (L : Layout) (sdim : Option Nat) (S : List Sl) : Bool :=
  isContiguousView L sdim S && !S.any Sl.isRange

/-- `sequence_view` over the strides or the shape of the expression below, without the axes taken by
integers: `unwrap_offset_container` — views/xview.hpp:241-267; containers/xstorage.hpp:1741-1917. -/
def withoutInts {α : Type} (L : Layout) (S : List Sl) (l : List α) : List α :=
  if L = .row_major then l.drop (integralCount S) else l.take (l.length - integralCount S)

/-- What a container or a view reports about itself: `shape()`, `strides()`, `data_offset()`,
`static_layout`, `layout()`, the static dimension, and what `flat` and `data_element` add to their
argument to get a position in the storage of the container. -/
structure MView where
  shape : List Nat
  strides : List Int
  off : Int
  slay : Layout
  lay : Layout
  sdim : Option Nat
  flatAdd : Int
  deriving DecidableEq, Repr

/-- A container of static layout `L` and run-time layout `l`, filling its storage —
containers/xcontainer.hpp:1000-1030; `layout()` 924-928, `data_offset()` 601-605, `flat` 670-688. -/
def MView.container (L l : Layout) (sh : List Nat) (sdim : Option Nat) : MView :=
  ⟨sh, (computeStrides L l sh).1, 0, L, if L = .dynamic then l else L, sdim, 0⟩

/-- A view of `p` with the bound slices `S`: shape 1724-1745 (`sequence_view` when there is no range,
269-279), strides 885-911 and 1543-1581, `data_offset` 1311-1345, `static_layout` 306-308, `layout()`
972-990, `flat` and `data_element` 1491-1523: both pass `data_offset() + i` to the same function of
`p` — views/xview.hpp. -/
def MView.view (p : MView) (S : List Sl) : MView :=
  let triv := trivialStrides p.slay p.sdim S
  let shape := if triv then withoutInts p.slay S p.shape else (viewShape p.shape S).map Int.toNat
  let strides := if triv then withoutInts p.slay S p.strides else viewStrides p.shape p.strides S
  let off := viewDataOffset p.strides p.off S
  let slay := if isContiguousView p.slay p.sdim S then p.slay else .dynamic
  ⟨shape, strides, off, slay,
   if slay ≠ .dynamic then slay else if doStridesMatch shape strides p.lay true then p.lay else .dynamic,
   p.sdim.map (· - integralCount S + newaxisCount S), p.flatAdd + off⟩

/-- `view(view(...(e, us₁)..., usₖ₋₁), usₖ)`, slices without `keep` and `drop`. -/
def MView.tower (p : MView) : List (List USlice) → Res MView
  | [] => .ok p
  | us :: uss => (makeView p.shape us).bind fun S => (p.view S).tower uss

/-- `size()`. -/
def MView.size (v : MView) : Nat := computeSize v.shape

/-- Positions from `linear_begin()` to `linear_end()` — views/xview.hpp:1168-1214; also `begin<L>()`
to `end<L>()` when `L` is the static layout (core/xiterable.hpp:949-980). -/
def MView.linear (v : MView) : List Int := (List.range v.size).map fun (i : Nat) => v.off + i

/-- Positions from `linear_rbegin()` to `linear_rend()` — views/xview.hpp:1216-1262. -/
def MView.linearReverse (v : MView) : List Int :=
  (List.range v.size).map fun (i : Nat) => v.off + v.size - 1 - i

/-- Position reached by `flat(i)`, `data_element(i)`, `load_simd(i)` and `store_simd(i)`. -/
def MView.flat (v : MView) (i : Nat) : Int := v.flatAdd + i

/-- The strided array the view is for steppers. -/
def MView.arr (v : MView) : StridedArr := StridedArr.mk' v.shape v.strides v.off

/-- `fill(x)` (views/xview.hpp:1010-1022) is the loop of `scalar_computed_assign`
(core/xsemantic.hpp:758-773) storing `x`; `v op= x` the same with another function. -/
def MView.update {β : Type} (v : MView) (f : β → β) (m : Mem β) : Mem β :=
  runTrace (viewScalarTrace (v.slay ≠ .dynamic) v.arr f) m

/-- `row(e, i)` — views/xview.hpp:1832-1863, 1908-1912: an exception unless there are two axes. -/
def MView.row (p : MView) (i : Int) : Res MView :=
  if p.shape.length ≠ 2 then .throws else (makeView p.shape [.int i, .all]).map p.view

/-- `col(e, i)` — views/xview.hpp:1865-1896, 1923-1927. -/
def MView.col (p : MView) (i : Int) : Res MView :=
  if p.shape.length ≠ 2 then .throws else (makeView p.shape [.all, .int i]).map p.view

/-! ### Lifetime -/

/-- Live containers by identity, with their shapes.  Members of view objects have identities too. -/
abbrev Objs := Nat → Option (List Nat)

/-- A container comes to life, changes its shape or dies. -/
def setObj (o : Objs) (k : Nat) (v : Option (List Nat)) : Objs := fun i => if i = k then v else o i

/-- `m_shape` of a view: a vector of its own, or a `sequence_view`, which is a reference to the shape
of a container — containers/xstorage.hpp:1786-1789. -/
inductive ShapeSrc
  | own (sh : List Nat)
  | ref (obj : Nat) (L : Layout) (S : List Sl)
  deriving DecidableEq, Repr

/-- A view object: `m_e` is a reference to a container or a container of its own (`owns`), `arr` its
identity. -/
structure VObj where
  arr : Nat
  owns : Bool
  src : ShapeSrc
  deriving DecidableEq, Repr

/-- The constructor — views/xview.hpp:879-911: `arr` is the container referred to, or the member. -/
def mkVObj (o : Objs) (L : Layout) (sdim : Option Nat) (arr : Nat) (owns : Bool) (S : List Sl) : VObj :=
  ⟨arr, owns, if trivialStrides L sdim S then .ref arr L S
    else .own ((viewShape ((o arr).getD []) S).map Int.toNat)⟩

/-- `shape()` — views/xview.hpp:954-958; through a `sequence_view` it reads the container. -/
def VObj.shape (o : Objs) (v : VObj) : Res (List Nat) :=
  match v.src with
  | .own sh => .ok sh
  | .ref obj L S => match o obj with
    | some sh => .ok (withoutInts L S sh)
    | none => .ub

/-- The copy constructor, member by member (there is no move constructor) — views/xview.hpp:460;
`fresh` is the identity of the copy's own container. -/
def VObj.copy (o : Objs) (fresh : Nat) (v : VObj) : Objs × VObj :=
  if v.owns then (setObj o fresh (o v.arr), ⟨fresh, true, v.src⟩) else (o, v)

/-- The destructor: the view's own container dies with it. -/
def VObj.destroy (o : Objs) (v : VObj) : Objs := if v.owns then setObj o v.arr none else o

/-- `view(e, S...)` holds an lvalue by reference and takes over an rvalue
(`xtl::closure_type_t`) — views/xview.hpp:1795-1828. -/
def viewOf (o : Objs) (L : Layout) (sdim : Option Nat) (arg fresh : Nat) (rvalue : Bool) (S : List Sl) :
    Objs × VObj :=
  if rvalue then
    (setObj o fresh (o arg), mkVObj (setObj o fresh (o arg)) L sdim fresh true S)
  else (o, mkVObj o L sdim arg false S)

/-- `row(e, i)`: `row_impl::make(e, i)` calls `view(e, i, all())` on its named parameter, an lvalue —
views/xview.hpp:1836-1842. -/
def rowOf (o : Objs) (L : Layout) (sdim : Option Nat) (arg fresh : Nat) (_rvalue : Bool) (S : List Sl) :
    Objs × VObj := viewOf o L sdim arg fresh false S

end Xt
