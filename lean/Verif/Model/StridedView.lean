import Verif.Model.View
import Verif.Model.Strides
/-!
# `strided_view(e, slices)`, `strided_view(e, shape, strides, offset)` and `reshape_view`

Source: views/xstrided_view_base.hpp, views/xstrided_view.hpp (under /repo/include/xtensor).

`new_offset` is a `std::size_t` incremented by values converted from `std::ptrdiff_t`; modulo 2^64
this is the signed sum, which is what we keep.  Extents are kept as the signed values before their
conversion to `std::size_t`, as in `viewShape`.  `xkeep_slice`/`xdrop_slice` are not alternatives of
the `xstrided_slice` variant (views/xstrided_view.hpp:317-337), so they cannot occur; the model
answers `ub` for them.
-/

namespace Xt

/-- State of the counting loop of `fill_args` — views/xstrided_view_base.hpp:842-869. -/
structure SvCount where
  dimension : Int
  check : Int
  newaxes : Nat
  ellipsis : Bool
deriving DecidableEq, Repr

/-- The counting loop — views/xstrided_view_base.hpp:846-869; throws on a second ellipsis. -/
def svCount (c : SvCount) : List USlice → Res SvCount
  | [] => .ok c
  | .newaxis :: us => svCount { c with dimension := c.dimension + 1, newaxes := c.newaxes + 1 } us
  | .int _ :: us => svCount { c with dimension := c.dimension - 1, check := c.check - 1 } us
  | .ellipsis :: us => if c.ellipsis then .throws else svCount { c with ellipsis := true } us
  | _ :: us => svCount { c with check := c.check - 1 } us

/-- One axis copied from the parent: `new_shape[idx] = old_shape[i_ax]`, `new_strides[idx] =
old_strides[i_ax]` — views/xstrided_view_base.hpp:916-917, 926-927, 951-952; `ub` when `i_ax` is not
an axis of the parent. -/
def svAxis (sh : List Nat) (st : List Int) (ax : Nat) : Res (Int × Int) :=
  match sh[ax]?, st[ax]? with
  | some n, some s => .ok ((n : Int), s)
  | _, _ => .ub

/-- `n` consecutive axes copied from the parent, starting at `ax`. -/
def svAxes (sh : List Nat) (st : List Int) (ax : Nat) : Nat → Res (List (Int × Int))
  | 0 => .ok []
  | n + 1 => (svAxis sh st ax).bind fun p => (svAxes sh st (ax + 1) n).map (p :: ·)

/-- The main loop of `fill_args` together with the trailing loop —
views/xstrided_view_base.hpp:896-954.  Result: the increments of `new_offset` added up and the
`(new_shape[idx], new_strides[idx])` in order of `idx`.  A newaxis leaves `new_strides[idx]` at the
value given by `resize`, i.e. 0 (`svector` with `Init = true`). -/
def svLoop (sh : List Nat) (st : List Int) (nAll : Nat) (i : Nat) (skip : Int) :
    List USlice → Res (Int × List (Int × Int))
  | [] =>
    let ax := ((i : Int) - skip).toNat
    (svAxes sh st ax (sh.length - ax)).map fun l => (0, l)
  | u :: us =>
    let ax := ((i : Int) - skip).toNat
    match u with
    | .int c => match st[ax]? with
      | some s => (svLoop sh st nAll (i + 1) skip us).map fun r => (c * s + r.1, r.2)
      | none => .ub
    | .newaxis => (svLoop sh st nAll (i + 1) (skip + 1) us).map fun r => (r.1, (1, 0) :: r.2)
    | .ellipsis => (svAxes sh st ax nAll).bind fun l =>
        (svLoop sh st nAll (i + 1) (skip - nAll + 1) us).map fun r => (r.1, l ++ r.2)
    | .all => (svAxis sh st ax).bind fun p =>
        (svLoop sh st nAll (i + 1) skip us).map fun r => (r.1, p :: r.2)
    | .range a b k => match sh[ax]?, st[ax]? with
      | some n, some s => (rangeGet a b k n).bind fun sl =>
          (svLoop sh st nAll (i + 1) skip us).map fun r =>
            (sl.value 0 * s + r.1, (sl.size, sl.stepSize 1 1 * s) :: r.2)
      | _, _ => .ub
    | .keep _ => .ub
    | .drop _ => .ub

/-- A strided view: shape, strides, offset, layout. -/
structure SView where
  shape : List Int
  strides : List Int
  offset : Int
  layout : Layout
deriving DecidableEq, Repr

/-- `strided_view_args::fill_args` — views/xstrided_view_base.hpp:838-958.  The vectors are resized to
`dimension` beforehand; writing any other number of entries is out of bounds (`ub`). -/
def svFillArgs (sh : List Nat) (st : List Int) (off : Int) (l : Layout) (us : List USlice) :
    Res SView :=
  (svCount ⟨sh.length, sh.length, 0, false⟩ us).bind fun c =>
    if c.check < 0 then .throws
    else
      let nAll : Int := if c.ellipsis then (sh.length : Int) - ((us.length : Int) - 1 - c.newaxes) else 0
      (svLoop sh st nAll.toNat 0 0 us).bind fun r =>
        if (r.2.length : Int) ≠ c.dimension then .ub
        else
          let shape := r.2.map Prod.fst
          let strides := r.2.map Prod.snd
          .ok { shape := shape, strides := strides, offset := off + r.1,
                layout := if doStridesMatch (shape.map Int.toNat) strides l true then l else .dynamic }

/-- Constructor of `xstrided_view_base`: strides of unit axes become 0 —
views/xstrided_view_base.hpp:303-321 with `adapt_strides` (core/xstrides.hpp:485-512). -/
def svConstruct (v : SView) : SView :=
  { v with strides := List.zipWith (fun (s : Int) st => if s = 1 then 0 else st) v.shape v.strides }

/-- `strided_view(e, slices)` — views/xstrided_view.hpp:789-810. -/
def stridedView (sh : List Nat) (st : List Int) (off : Int) (l : Layout) (us : List USlice) :
    Res SView := (svFillArgs sh st off l us).map svConstruct

/-- `compute_index(args...)` — views/xstrided_view_base.hpp:661-667. -/
def SView.index (v : SView) (args : List Int) : Int := v.offset + dataOffset v.strides false args

/-- `compute_element_index(first, last)` — views/xstrided_view_base.hpp:677-682. -/
def SView.elementIndex (v : SView) (args : List Int) : Int := v.offset + elementOffset v.strides args

/-- `linear_begin() + k` — views/xstrided_view.hpp:487-497 — as a position in the storage. -/
def SView.linear (v : SView) (k : Nat) : Int := v.offset + k

/-- `flat(i)`, `data_element(i)`, `load_simd(i)` — views/xstrided_view.hpp:463-485, 673-690: the
offset is not added. -/
def SView.flat (_ : SView) (k : Nat) : Int := k

/-- `detail::recalculate_shape_impl` (signed shapes) — views/xstrided_view.hpp:826-841. -/
def recalculateShape (shape : List Int) (size : Nat) : Res (List Int) :=
  match shape.findIdx? (· = -1) with
  | none => .ok shape
  | some k =>
    let total := shape.foldl (· * ·) (-1)
    if total = 0 then .ub else .ok (shape.set k ((size : Int).tdiv total))

/-- Element of the parent reached by `reshape_view<L>(e, shape)(args...)`: position in the flat
adaptor (offset 0, strides of the new shape), then `flat_expression_adaptor::operator[]` —
views/xstrided_view.hpp:857-884, views/xstrided_view_base.hpp:724-737. -/
def reshapeViewIndex (sh : List Nat) (L : Layout) (shape : List Nat) (args : List Int) :
    Option (List Int) :=
  unravelFromStrides (dataOffset (computeStrides .dynamic L shape).1 false args)
    (computeStrides .dynamic L sh).1 L

end Xt
