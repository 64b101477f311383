import Verif.Model.Semantic
/-!
# Model: masked views

Source: views/xmasked_view.hpp, with the assignment of core/xassign.hpp and core/xsemantic.hpp (under
/repo/include/xtensor).

Data and mask are containers or strided views (`StridedArr`), in two memories: they do not share storage.
`xtl::xmasked_value` is not part of the repository.  A reference is a pair of references, to a value and to a flag.
Assigning a plain value to it stores the value if the flag is set and leaves the flag (pinned down by
test/test_xmasked_view.cpp:158-184, 187-223); what assigning another masked value does is a parameter, `rule`.
-/

namespace Xt


/-- `m_data` and `m_mask` — views/xmasked_view.hpp:240-241.  The constructor compares nothing (307-313). -/
structure MaskedV where
  data : StridedArr
  mask : StridedArr

/-- Memory of the values and memory of the flags. -/
structure MaskMem (α : Type) where
  vals : Mem α
  vis : Mem Bool

/-- `shape()` — views/xmasked_view.hpp:331-335. -/
def MaskedV.shape (v : MaskedV) : List Nat := v.data.shape

/-- `operator()(args...)`: addresses of the value and of the flag — views/xmasked_view.hpp:394-412. -/
def MaskedV.cell (v : MaskedV) (args : List Int) : Int × Int :=
  (v.data.off + dataOffset v.data.strides false args, v.mask.off + dataOffset v.mask.strides false args)

/-- `at(args...)` — core/xaccessible.hpp:173-179 with the shape of the view; `none`: exception. -/
def MaskedV.atCell (v : MaskedV) (args : List Int) : Option (Int × Int) :=
  if checkAccess v.shape false args then some (v.cell args) else none

/-- `element(first, last)`, `operator[]` — views/xmasked_view.hpp:473-492. -/
def MaskedV.elementCell (v : MaskedV) (idx : List Int) : Int × Int :=
  (v.data.off + elementOffset v.data.strides idx, v.mask.off + elementOffset v.mask.strides idx)

/-- `shape.size() - dimension()` in `std::size_t` — containers/xcontainer.hpp:694-724. -/
def stepOffset (dim n : Nat) : Nat := if n ≤ dim then dim - n else dim + (szMax + 1) - n

/-- `xmasked_view_stepper`: every operation on both steppers — views/xmasked_view.hpp:606-673. -/
def MaskedV.ops (v : MaskedV) (dim : Nat) : StepOps (Int × Int) :=
  pairOps (xstepperOps v.data (stepOffset dim v.data.shape.length))
    (xstepperOps v.mask (stepOffset dim v.mask.shape.length))

/-- `begin<L>()` — views/xmasked_view.hpp:539-544, 553-558. -/
def MaskedV.first (v : MaskedV) : XIter (Int × Int) :=
  XIter.mkBegin (xstepperBegin v.data, xstepperBegin v.mask) v.shape

/-- `end<L>()` — views/xmasked_view.hpp:546-551, 560-566. -/
def MaskedV.last (v : MaskedV) (L : Layout) : XIter (Int × Int) :=
  XIter.mkEnd (xstepperEnd v.data L (stepOffset v.shape.length v.data.shape.length),
    xstepperEnd v.mask L (stepOffset v.shape.length v.mask.shape.length)) L v.shape

/-- Cells seen by `for (it = begin<L>(); it != end<L>(); ++it) *it`. -/
def MaskedV.each (v : MaskedV) (L : Layout) : List (Int × Int) :=
  XIter.walk (v.ops v.shape.length) L v.shape (v.last L) (v.data.size + 1) v.first

/-- Cells seen from `rbegin<L>()` to `rend<L>()`. -/
def MaskedV.eachBack (v : MaskedV) (L : Layout) : List (Int × Int) :=
  XIter.walkBack (v.ops v.shape.length) L v.shape v.first (v.data.size + 1) (v.last L)

variable {α : Type}

/-- `reference = value`. -/
def MaskMem.put (m : MaskMem α) (c : Int × Int) (x : α) : MaskMem α :=
  if m.vis c.2 then { m with vals := m.vals.set c.1 x } else m

/-- `reference = masked value`. -/
def MaskMem.putMasked (rule : α × Bool → α × Bool → α × Bool) (m : MaskMem α) (c : Int × Int) (r : α × Bool) :
    MaskMem α :=
  let s := rule (m.vals c.1, m.vis c.2) r
  ⟨m.vals.set c.1 s.1, m.vis.set c.2 s.2⟩

/-- `fill(x)`, `operator=(x)`: `std::fill(begin(), end(), x)` — views/xmasked_view.hpp:377-382, 582-588. -/
def MaskedV.fill (v : MaskedV) (x : α) (m : MaskMem α) : MaskMem α :=
  (v.each .row_major).foldl (fun (m : MaskMem α) c => m.put c x) m

/-- `view += x` and the like: `*dst = f(*dst, x)` along `begin()` — core/xsemantic.hpp:757-771.  A masked value combined
with a plain one keeps its flag; the value behind a flag that is not set does not matter. -/
def MaskedV.scalarOp (rule : α × Bool → α × Bool → α × Bool) (v : MaskedV) (f : α → α) (m : MaskMem α) : MaskMem α :=
  (v.each .row_major).foldl (fun (m : MaskMem α) c => m.putMasked rule c (f (m.vals c.1), m.vis c.2)) m

/-- `assign_temporary_impl`: `std::copy(tmp.cbegin(), tmp.cend(), begin())` — views/xmasked_view.hpp:590-594; `tmp`: the
elements of the temporary in row-major order.  `none`: written past the last element. -/
def MaskedV.copyIn (rule : α × Bool → α × Bool → α × Bool) (v : MaskedV) (tmp : List (α × Bool)) (m : MaskMem α) :
    Option (MaskMem α) :=
  if (v.each .row_major).length < tmp.length then none
  else some (((v.each .row_major).zip tmp).foldl
    (fun (m : MaskMem α) (p : (Int × Int) × (α × Bool)) => m.putMasked rule p.1 p.2) m)

/-- `view = e` for an expression of plain values: `xview_semantic::operator=`, then a temporary, since nothing is known
of the memory of a masked view — core/xsemantic.hpp:620-641, 773-793, views/xmasked_view.hpp:575-580.  The temporary holds
visible values in row-major order (filling it is C24).  `none`: exception; `some none`: written past the last element. -/
def MaskedV.assign (rule : α × Bool → α × Bool → α × Bool) (v : MaskedV) (e : Ex α) (m : MaskMem α) :
    Option (Option (MaskMem α)) :=
  match e.exShape with
  | none => none
  | some s =>
    if s = v.shape then some (v.copyIn rule ((e.values .row_major s).map fun (x : α) => (x, true)) m)
    else (broadcastShape s v.shape).map fun r =>
      v.copyIn rule (((Ex.bcast e r.1).values .row_major r.1).map fun (x : α) => (x, true)) m

/-- `has_linear_assign(strides)` — views/xmasked_view.hpp:496-501, containers/xcontainer.hpp:631-636. -/
def MaskedV.hasLinear (v : MaskedV) (strides : List Int) : Bool := v.data.strides == strides && v.mask.strides == strides

/-- `array = masked_view`, `temporary_type tmp(masked_view)` after the resize: pairs of destination and source.  `contig`:
`is_contiguous()` of the destination, `L`: its order if it has one.  `E2::contiguous_layout` is false, so the flat loop is
chosen by `has_linear_assign`; a masked view has no `linear_cbegin`, so `linear_begin` is `cbegin`, in row-major order —
core/xassign.hpp:268-274, 439-478, 798-845, core/xiterator.hpp:446-457, views/xmasked_view.hpp:124.  Otherwise the
steppers of both are moved together — core/xassign.hpp:644-667. -/
def MaskedV.into (v : MaskedV) (d : StridedArr) (contig : Bool) (L : Layout) : List (Int × (Int × Int)) :=
  if contig && v.hasLinear d.strides then
    ((List.range d.size).map fun (i : Nat) => d.off + i).zip (v.each .row_major)
  else
    XIter.walk (pairOps (xstepperOps d 0) (v.ops d.shape.length)) (Layout.defaultAssignable .row_major L) d.shape
      (XIter.mkEnd (d.off, (v.data.off, v.mask.off)) (Layout.defaultAssignable .row_major L) d.shape) (d.size + 1)
      (XIter.mkBegin (xstepperBegin d, (xstepperBegin v.data, xstepperBegin v.mask)) d.shape)

end Xt
