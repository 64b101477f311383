import Verif.Model.StridedView
import Verif.Spec.Index
/-!
# `dynamic_view(e, slices)`

Source: views/xdynamic_view.hpp, views/xstrided_view_base.hpp (under /repo/include/xtensor).

The builder is `strided_view_args<adj_strides_policy>::fill_args`: the same loops as for
`strided_view` (Model/StridedView.lean), with a policy that records, for every axis of the view, a
slice to be evaluated at each access and the stride its value is multiplied with.  Offsets are the
signed sums, as in Model/StridedView.lean.  Ranges are the `xrange_adaptor`s built by `range(...)`.
`drop` objects in the slice vector are taken freshly constructed (the policy normalises a copy, so
the slice vector itself is never modified).  `fill(value)` calls `linear_begin`, which the class does
not have (it derives from `xiterable`, core/xiterable.hpp), so it cannot be instantiated; it is left out.
-/

namespace Xt

/-- `slice_type` of the view: `std::variant<xfake_slice, xkeep_slice, xdrop_slice>` —
views/xdynamic_view.hpp:136. -/
inductive DSl
  | fake
  | sel (s : Sl)
deriving DecidableEq, Repr

/-- `sl(i)`: `xfake_slice::operator()` is 0 — views/xdynamic_view.hpp:332-335; keep and drop as in
Model/Slice.lean. -/
def DSl.value : DSl → Int → Int
  | .fake, _ => 0
  | .sel s, i => s.value i

/-- What `fill_args` writes at one position: `new_shape`, `new_strides`, `new_slices`,
`new_adj_strides`. -/
structure DAxis where
  extent : Int
  stride : Int
  slice : DSl
  adj : Int
deriving DecidableEq, Repr

/-- `set_fake_slice(idx)` — views/xdynamic_view.hpp:711-715 — beside the extent and stride. -/
def fakeAxis (p : Int × Int) : DAxis := ⟨p.1, p.2, .fake, 0⟩

/-- `adj_strides_policy::fill_args_impl` on a keep or drop slice, after `normalize(old_shape)`: the
size of the slice, stride 0, the slice itself and the parent's stride —
views/xdynamic_view.hpp:744-770. -/
def selAxis (s : Sl) (oldStride : Int) : DAxis := ⟨s.size, 0, .sel s, oldStride⟩

/-- `n` consecutive axes copied from the parent — views/xstrided_view_base.hpp:914-920, 948-954. -/
def dvAxes (sh : List Nat) (st : List Int) (ax n : Nat) : Res (List DAxis) :=
  (svAxes sh st ax n).map fun (l : List (Int × Int)) => l.map fakeAxis

/-- The main and trailing loops of `fill_args` with `adj_strides_policy` —
views/xstrided_view_base.hpp:896-954, views/xdynamic_view.hpp:717-770. -/
def dvLoop (sh : List Nat) (st : List Int) (nAll : Nat) (i : Nat) (skip : Int) :
    List USlice → Res (Int × List DAxis)
  | [] =>
    let ax := ((i : Int) - skip).toNat
    (dvAxes sh st ax (sh.length - ax)).map fun l => (0, l)
  | u :: us =>
    let ax := ((i : Int) - skip).toNat
    match u with
    | .int c => match st[ax]? with
      | some s => (dvLoop sh st nAll (i + 1) skip us).map fun r => (c * s + r.1, r.2)
      | none => .ub
    | .newaxis => (dvLoop sh st nAll (i + 1) (skip + 1) us).map fun r => (r.1, fakeAxis (1, 0) :: r.2)
    | .ellipsis => (dvAxes sh st ax nAll).bind fun l =>
        (dvLoop sh st nAll (i + 1) (skip - nAll + 1) us).map fun r => (r.1, l ++ r.2)
    | .all => (svAxis sh st ax).bind fun p =>
        (dvLoop sh st nAll (i + 1) skip us).map fun r => (r.1, fakeAxis p :: r.2)
    | .range a b k => match sh[ax]?, st[ax]? with
      | some n, some s => (rangeGet a b k n).bind fun sl =>
          (dvLoop sh st nAll (i + 1) skip us).map fun r =>
            (sl.value 0 * s + r.1, fakeAxis (sl.size, sl.stepSize 1 1 * s) :: r.2)
      | _, _ => .ub
    | .keep l => match sh[ax]?, st[ax]? with
      | some n, some s => (dvLoop sh st nAll (i + 1) skip us).map fun r =>
          (r.1, selAxis (.keep (l.map (normIndex n))) s :: r.2)
      | _, _ => .ub
    | .drop l => match sh[ax]?, st[ax]? with
      | some n, some s => (dvLoop sh st nAll (i + 1) skip us).map fun r =>
          (r.1, selAxis (dropNormalize [] l n) s :: r.2)
      | _, _ => .ub

/-- A dynamic view: offset, layout, and the axes. -/
structure DView where
  axes : List DAxis
  offset : Int
  layout : Layout
deriving DecidableEq, Repr

namespace DView

/-- `shape()`. -/
def shape (v : DView) : List Int := v.axes.map DAxis.extent
/-- The strides of the private base. -/
def strides (v : DView) : List Int := v.axes.map DAxis.stride

end DView

/-- The constructor of the base makes the strides of unit axes 0 — views/xstrided_view_base.hpp:303-321
with `adapt_strides` (core/xstrides.hpp:485-512). -/
def unitStride (a : DAxis) : DAxis := if a.extent = 1 then { a with stride := 0 } else a

/-- `dynamic_view(e, slices)` — views/xdynamic_view.hpp:774-799 — where `e` has shape `sh`, strides
`st`, offset `off` and layout `l`; `fill_args` as in `svFillArgs` — views/xstrided_view_base.hpp:838-958. -/
def dynamicView (sh : List Nat) (st : List Int) (off : Int) (l : Layout) (us : List USlice) :
    Res DView :=
  (svCount ⟨sh.length, sh.length, 0, false⟩ us).bind fun c =>
    if c.check < 0 then .throws
    else
      let nAll : Int := if c.ellipsis then (sh.length : Int) - ((us.length : Int) - 1 - c.newaxes) else 0
      (dvLoop sh st nAll.toNat 0 0 us).bind fun r =>
        if (r.2.length : Int) ≠ c.dimension then .ub
        else
          .ok { axes := r.2.map unitStride, offset := off + r.1,
                layout := if doStridesMatch ((r.2.map DAxis.extent).map Int.toNat)
                    (r.2.map DAxis.stride) l true then l else .dynamic }

/-- `adjust_offset_impl(offset, idx_offset, args...)`, the first list holding the axes from
`idx_offset` on — views/xdynamic_view.hpp:646-668. -/
def adjustImpl (offset : Int) : List DAxis → List Int → Int
  | _, [] => offset
  | [], _ :: _ => offset
  | a :: as, i :: is => adjustImpl (offset + a.slice.value i * a.adj) as is

/-- `adjust_offset(offset, args...)` — views/xdynamic_view.hpp:627-644: arguments beyond the dimension
are dropped from the left; with fewer arguments than axes, they belong to the last axes. -/
def adjustOffset (v : DView) (offset : Int) : List Int → Int
  | [] => offset
  | i :: is => if v.axes.length < is.length + 1 then adjustOffset v offset is
    else adjustImpl offset (v.axes.drop (v.axes.length - (is.length + 1))) (i :: is)

/-- Position in the storage read by `operator()(args...)` with at least one argument —
views/xdynamic_view.hpp:430-449. -/
def DView.index (v : DView) (args : List Int) : Int :=
  adjustOffset v (v.offset + dataOffset v.strides false args) args

/-- The loop of `adjust_element_offset` — views/xdynamic_view.hpp:681-694: axis `i` takes
`first[idx_offset]`, then `++first`. -/
def adjustElementLoop (offset : Int) : List DAxis → List Int → Int
  | [], _ => offset
  | _ :: _, [] => offset
  | a :: as, j :: js => adjustElementLoop (offset + a.slice.value j * a.adj) as js

/-- `adjust_element_offset(offset, first, last)` — views/xdynamic_view.hpp:670-696. -/
def adjustElementOffset (v : DView) (offset : Int) (idx : List Int) : Int :=
  let dim := v.axes.length
  let dst := idx.length
  let loopOffset := if dst < dim then dim - dst else 0
  let idxOffset := if dim < dst then dst - dim else 0
  adjustElementLoop offset (v.axes.drop loopOffset) (idx.drop idxOffset)

/-- Position in the storage read by `element(first, last)` — views/xdynamic_view.hpp:489-507 — and
hence by `operator[](index)` and by iteration, whose steppers are `xindexed_stepper`s
(views/xdynamic_view.hpp:59-60). -/
def DView.elementIndex (v : DView) (idx : List Int) : Int :=
  adjustElementOffset v (v.offset + elementOffset v.strides idx) idx

/-- `data_offset()` — views/xdynamic_view.hpp:509-520: the slice of axis 0 only; a view without axes
has no such slice. -/
def DView.dataOffset0 (v : DView) : Res Int :=
  match v.axes with
  | [] => .ub
  | a :: _ => .ok (v.offset + a.slice.value 0 * a.adj)

/-- `operator()()` — views/xdynamic_view.hpp:416-426. -/
def DView.callNoArgs (v : DView) : Res Int := v.dataOffset0

/-- `flat(i)` — views/xdynamic_view.hpp:476-486. -/
def DView.flat (v : DView) (i : Nat) : Res Int := v.dataOffset0.map fun (o : Int) => o + i

/-- `unchecked(args...)` — views/xdynamic_view.hpp:458-473: the computed offset is overwritten by
`adjust_offset(args...)`, whose first parameter is the offset.  (Without arguments it does not compile.) -/
def DView.unchecked (v : DView) : List Int → Int
  | [] => v.offset
  | i :: is => adjustOffset v i is

/-- Positions visited by `begin()`..`end()`: the stepper moves through the multi-indices in row-major
order (`XTENSOR_DEFAULT_TRAVERSAL`) and dereferences with `element` — views/xdynamic_view.hpp:59-60,
525-558 with `xindexed_stepper` (core/xiterator.hpp). -/
def DView.positions (v : DView) : List Int :=
  (Spec.rowIndices (v.shape.map Int.toNat)).map fun (idx : List Nat) => v.elementIndex (Spec.toInts idx)

/-- `storage()[p] = x`; outside the storage undefined. -/
def writeAt {α : Type} (buf : List α) (p : Int) (x : α) : Res (List α) :=
  if 0 ≤ p ∧ p < buf.length then .ok (buf.set p.toNat x) else .ub

/-- Values written one after the other to positions. -/
def writeAll {α : Type} : List α → List (Int × α) → Res (List α)
  | buf, [] => .ok buf
  | buf, (p, x) :: ws => (writeAt buf p x).bind fun b => writeAll b ws

/-- `view = value`: `std::fill(begin(), end(), value)` — views/xdynamic_view.hpp:407-413. -/
def DView.assignScalar {α : Type} (v : DView) (buf : List α) (x : α) : Res (List α) :=
  writeAll buf (v.positions.map fun (p : Int) => (p, x))

/-- `assign_temporary_impl(tmp)`: `std::copy(tmp.cbegin(), tmp.cend(), begin())`, `tmp` given by its
elements in row-major order — views/xdynamic_view.hpp:620-624. -/
def DView.assignTemporary {α : Type} (v : DView) (buf : List α) (tmp : List α) : Res (List α) :=
  writeAll buf (v.positions.zip tmp)

end Xt
