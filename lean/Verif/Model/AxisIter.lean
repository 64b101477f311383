import Verif.Model.Assign
/-!
# Model of the iterators over slices along an axis

views/xaxis_iterator.hpp and views/xaxis_slice_iterator.hpp, for expressions with strides.  `off` of an array is its
`data_offset()`, an index into its storage.  Offsets are integers; in the code they are words, whose wrapping makes no
difference as long as the slices lie in the storage.  Iterators into different expressions are not compared.
-/

namespace Xt

/-- `xaxis_iterator`: `m_index` and the offset of `m_sv` — views/xaxis_iterator.hpp:66-70. -/
structure AxisIt where
  idx : Nat
  off : Int
  deriving DecidableEq

/-- `axis_begin(e, axis)` — views/xaxis_iterator.hpp:149-154, 297-303. -/
def axisBegin (a : StridedArr) : AxisIt := ⟨0, a.off⟩

/-- `axis_end(e, axis)` — views/xaxis_iterator.hpp:332-344. -/
def axisEnd (a : StridedArr) (axis : Nat) : AxisIt :=
  ⟨a.shape.getD axis 0, a.strides.getD axis 0 * (a.shape.getD axis 0 : Int)⟩

/-- `operator++` — views/xaxis_iterator.hpp:183-190, with `m_add_offset` from 170. -/
def AxisIt.next (a : StridedArr) (axis : Nat) (it : AxisIt) : AxisIt :=
  ⟨it.idx + 1, it.off + a.strides.getD axis 0⟩

/-- `operator*`: the strided view made by `derive_xstrided_view` — views/xaxis_iterator.hpp:101-123, 213-217. -/
def AxisIt.deref (a : StridedArr) (axis : Nat) (it : AxisIt) : StridedArr :=
  StridedArr.mk' (a.shape.take axis ++ a.shape.drop (axis + 1)) (a.strides.take axis ++ a.strides.drop (axis + 1)) it.off

/-- `equal` — views/xaxis_iterator.hpp:243-249. -/
def AxisIt.equal (x y : AxisIt) : Bool := x.idx == y.idx && x.off == y.off

/-- `for (it = axis_begin(e, axis); it != axis_end(e, axis); ++it) *it`, at most `fuel` steps; `none`: it goes on. -/
def axisLoop (a : StridedArr) (axis : Nat) : Nat → AxisIt → Option (List StridedArr)
  | 0, _ => none
  | fuel + 1, it =>
    if it.equal (axisEnd a axis) then some []
    else (axisLoop a axis fuel (it.next a axis)).map (it.deref a axis :: ·)

/-- The constants of an `xaxis_slice_iterator` — views/xaxis_slice_iterator.hpp:62-70. -/
structure SliceConsts where
  axisStride : Int
  lower : Nat
  upper : Int
  iterSize : Nat
  target : Bool

/-- Its constructor — views/xaxis_slice_iterator.hpp:141-184; `l` is `e.layout()`.  The upper bound wraps for an axis without elements, which is not modelled. -/
def sliceConsts (a : StridedArr) (l : Layout) (axis : Nat) : SliceConsts :=
  let st := a.strides.getD axis 0 * ((a.shape.getD axis 0 : Int) - 1)
  if l = .row_major then
    let lo := (a.shape.drop (axis + 1)).foldl (· * ·) 1
    ⟨st, lo, lo + st, (a.shape.drop 1).foldl (· * ·) 1, axis == a.shape.length - 1⟩
  else
    let lo := (a.shape.take axis).foldl (· * ·) 1
    ⟨st, lo, lo + st, (a.shape.take (a.shape.length - 1)).foldl (· * ·) 1, axis == 0⟩

/-- `operator++`: the next offset — views/xaxis_slice_iterator.hpp:193-206.  A remainder by zero is undefined. -/
def SliceConsts.next (c : SliceConsts) (off : Int) : Res Int :=
  if c.iterSize = 0 then .ub
  else
    let cmp := (off + 1) % (c.iterSize : Int)
    .ok (if c.target ∨ (c.upper ≥ cmp ∧ cmp ≥ (c.lower : Int)) then off + 1 + c.axisStride else off + 1)

/-- The offsets of the slices visited; the iterators compare their counts only, so `n` steps remain —
    views/xaxis_slice_iterator.hpp:258-263. -/
def sliceLoop (c : SliceConsts) : Nat → Int → Res (List Int)
  | 0, _ => .ok []
  | n + 1, off => (c.next off).bind fun off' => (sliceLoop c n off').map (off :: ·)

/-- The count of `axis_slice_end(e, axis)` — views/xaxis_slice_iterator.hpp:345-363. -/
def sliceCount (a : StridedArr) (axis : Nat) : Nat :=
  (a.shape.drop (axis + 1)).foldl (· * ·) ((a.shape.take axis).foldl (· * ·) 1)

/-- `for (it = axis_slice_begin(e, axis); it != axis_slice_end(e, axis); ++it) *it`: the strided views —
    views/xaxis_slice_iterator.hpp:152-158, 228-232. -/
def axisSlices (a : StridedArr) (l : Layout) (axis : Nat) : Res (List StridedArr) :=
  (sliceLoop (sliceConsts a l axis) (sliceCount a axis) a.off).map fun offs =>
    offs.map fun o => StridedArr.mk' [a.shape.getD axis 0] [a.strides.getD axis 0] o

end Xt
