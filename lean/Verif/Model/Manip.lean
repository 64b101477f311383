import Verif.Model.StridedView
import Verif.Model.Reducer
/-!
# Model of `misc/xmanipulation.hpp`

Views over an expression that has a data interface (container, adaptor, strided view …) are described
by shape, strides, offset in the storage and layout.
-/

namespace Xt

/-- An expression with strides, or a view built from one. -/
structure Strd where
  shape : List Nat
  strides : List Int
  offset : Int
  layout : Layout
deriving DecidableEq, Repr

/-- `strided_view(e, shape, strides, offset, layout)` — views/xstrided_view.hpp:727-732 and the constructor
views/xstrided_view_base.hpp:311-331: strides of unit extents become 0.  Fewer strides than extents are
read out of bounds; more do not occur. -/
def mkStrd (shape : List Nat) (strides : List Int) (offset : Int) (l : Layout) : Res Strd :=
  if strides.length ≠ shape.length then .ub
  else .ok { shape := shape, strides := adaptStrides shape strides, offset := offset, layout := l }

/-- Storage position of `v(args...)` — views/xstrided_view_base.hpp:661-667. -/
def Strd.index (v : Strd) (args : List Int) : Int := v.offset + dataOffset v.strides false args

/-- `detail::transpose_layout_noexcept` — misc/xmanipulation.hpp:125-137. -/
def transposeLayout : Layout → Layout
  | .row_major => .column_major
  | .column_major => .row_major
  | l => l

/-- `std::is_sorted(first, last)`. -/
def sortedUp : List Int → Bool
  | a :: b :: l => !decide (b < a) && sortedUp (b :: l)
  | _ => true

/-- `std::is_sorted(first, last, std::greater<>())`. -/
def sortedDown : List Int → Bool
  | a :: b :: l => !decide (b > a) && sortedDown (b :: l)
  | _ => true

/-- `transpose_impl(e, permutation, check_policy::none)` — misc/xmanipulation.hpp:148-195.  A negative entry
converts to a `size_t` that is not a dimension. -/
def transposePerm (e : Strd) (perm : List Int) : Res Strd :=
  if perm.length ≠ e.shape.length then .throws
  else if perm.any fun p => decide (p < 0 ∨ p ≥ e.shape.length) then .throws
  else
    mkStrd (perm.map fun p => e.shape.getD p.toNat 0) (perm.map fun p => e.strides.getD p.toNat 0) e.offset
      (if sortedUp perm then e.layout else if sortedDown perm then transposeLayout e.layout else .dynamic)

/-- `transpose_impl(e, permutation, check_policy::full)` — misc/xmanipulation.hpp:197-212. -/
def transposeFull (e : Strd) (perm : List Int) : Res Strd :=
  if ¬ perm.Nodup then .throws else transposePerm e perm

/-- `transpose(e)` of an expression with a data interface — misc/xmanipulation.hpp:238-259. -/
def transposeRev (e : Strd) : Res Strd :=
  mkStrd e.shape.reverse e.strides.reverse e.offset (transposeLayout e.layout)

/-- Element of `e` reached by `transpose(e)(args...)` when `e` has no data interface —
misc/xmanipulation.hpp:214-229, 238-259: column-major strides of the reversed shape give a position in the
flat adaptor, which reads the element of that row-major rank. -/
def transposeLazyIndex (sh : List Nat) (args : List Int) : Option (List Int) :=
  unravelFromStrides
    (dataOffset (adaptStrides sh.reverse (computeStrides .dynamic .column_major sh.reverse).1) false args)
    (computeStrides .dynamic .row_major sh).1 .row_major

/-- `check_axis_in_dim` — utils/xexception.hpp:287-299. -/
def axisInDim (axis : Int) (dim : Nat) : Bool := !(decide (axis ≥ dim) || decide (axis < -(dim : Int)))

/-- `detail::swapaxes_perm` — misc/xmanipulation.hpp:291-302. -/
def swapaxesPerm (dim : Nat) (axis1 axis2 : Int) : List Int :=
  let ax1 := normalizeAxis dim axis1
  let ax2 := normalizeAxis dim axis2
  (((List.range dim).map Int.ofNat).set ax1 ax2).set ax2 ax1

/-- `swapaxes` — misc/xmanipulation.hpp:315-324. -/
def swapaxes (e : Strd) (axis1 axis2 : Int) : Res Strd :=
  if !axisInDim axis1 e.shape.length then .throws
  else if !axisInDim axis2 e.shape.length then .throws
  else transposePerm e (swapaxesPerm e.shape.length axis1 axis2)

/-- Loop of `moveaxis_perm` — misc/xmanipulation.hpp:344-356: `i` loop variable, `p` is `perm_idx`.
Writes past the end of the sequence cannot be represented by `set`; `moveaxisLoop_bound` shows they do not
occur. -/
def moveaxisLoop (src dest : Nat) : Nat → Nat → Nat → List Int → List Int
  | 0, _, _, perm => perm
  | k + 1, i, p, perm =>
    let q := if p = dest then (p + 1, perm.set p src) else (p, perm)
    if i ≠ src then moveaxisLoop src dest k (i + 1) (q.1 + 1) (q.2.set q.1 i)
    else moveaxisLoop src dest k (i + 1) q.1 q.2

/-- `detail::moveaxis_perm` — misc/xmanipulation.hpp:332-358. -/
def moveaxisPerm (dim : Nat) (src dest : Int) : List Int :=
  moveaxisLoop (normalizeAxis dim src) (normalizeAxis dim dest) dim 0 0
    (List.replicate dim (normalizeAxis dim src : Int))

/-- `moveaxis` — misc/xmanipulation.hpp:369-378. -/
def moveaxis (e : Strd) (src dest : Int) : Res Strd :=
  if !axisInDim src e.shape.length then .throws
  else if !axisInDim dest e.shape.length then .throws
  else transposePerm e (moveaxisPerm e.shape.length src dest)

/-- `squeeze(e)` — misc/xmanipulation.hpp:514-540: the offset passed on is 0. -/
def squeezeAll (e : Strd) : Res Strd :=
  mkStrd (e.shape.filter (· ≠ 1)) (e.strides.filter (· ≠ 0)) 0 e.layout

/-- Loop of `squeeze_impl` — misc/xmanipulation.hpp:553-560: extents and strides of the axes from `i` on that
are not listed. -/
def squeezeLoop (axes : List Nat) : Nat → List Nat → List Int → List (Nat × Int)
  | i, n :: sh, s :: st =>
    if axes.contains i then squeezeLoop axes (i + 1) sh st else (n, s) :: squeezeLoop axes (i + 1) sh st
  | _, _, _ => []

/-- `squeeze_impl(e, axis, check_policy::none)` — misc/xmanipulation.hpp:544-563.  The vectors have
`dimension - axis.size()` entries: writing another number of entries is out of bounds or leaves zeros. -/
def squeezeAxes (e : Strd) (axes : List Nat) : Res Strd :=
  let l := squeezeLoop axes 0 e.shape e.strides
  if axes.length > e.shape.length ∨ l.length > e.shape.length - axes.length then .ub
  else
    let pad := e.shape.length - axes.length - l.length
    mkStrd (l.map Prod.fst ++ List.replicate pad 0) (l.map Prod.snd ++ List.replicate pad 0) 0 e.layout

/-- `squeeze_impl(e, axis, check_policy::full)` — misc/xmanipulation.hpp:565-580: axis equal to the dimension
reads past the shape. -/
def squeezeCheck (e : Strd) : List Nat → Res Unit
  | [] => .ok ()
  | ix :: axes =>
    if ix > e.shape.length then .throws
    else match e.shape[ix]? with
      | none => .ub
      | some n => if n ≠ 1 then .throws else squeezeCheck e axes

/-- `squeeze(e, axis, check_policy::full())` — misc/xmanipulation.hpp:565-580. -/
def squeezeFull (e : Strd) (axes : List Nat) : Res Strd :=
  (squeezeCheck e axes).bind fun _ => squeezeAxes e axes

/-- Slices of `expand_dims` — misc/xmanipulation.hpp:634-640; `sv[axis]` is out of bounds for
`axis > dimension`. -/
def expandDims (e : Strd) (axis : Nat) : Res SView :=
  if axis > e.shape.length then .ub
  else stridedView e.shape e.strides e.offset e.layout
    ((List.replicate (e.shape.length + 1) USlice.all).set axis .newaxis)

/-- Leading newaxes of `atleast_Nd` — misc/xmanipulation.hpp:666: `round((N - dim) / N)` (exact in `double`
for the sizes that occur, half rounds up). -/
def atleastLead (N dim : Nat) : Nat := if 2 * (N - dim) ≥ N then 1 else 0

/-- Slices of `atleast_Nd<N>` — misc/xmanipulation.hpp:659-676. -/
def atleastSlices (N dim : Nat) : List USlice :=
  if dim < N then
    List.replicate (atleastLead N dim) .newaxis ++ List.replicate dim .all ++
      List.replicate (N - dim - atleastLead N dim) .newaxis
  else List.replicate dim .all

/-- `atleast_Nd<N>(e)` — misc/xmanipulation.hpp:659-678. -/
def atleastNd (N : Nat) (e : Strd) : Res SView :=
  stridedView e.shape e.strides e.offset e.layout (atleastSlices N e.shape.length)

/-- `split(e, n, axis)` — misc/xmanipulation.hpp:733-758: the views, in order; division by zero for
`n = 0`. -/
def split (e : Strd) (n axis : Nat) : Res (List (Res SView)) :=
  if axis ≥ e.shape.length then .throws
  else if n = 0 then .ub
  else
    let sz := e.shape.getD axis 0
    let step := sz / n
    if sz % n ≠ 0 then .throws
    else .ok ((List.range n).map fun i => stridedView e.shape e.strides e.offset e.layout
      ((List.replicate e.shape.length USlice.all).set axis
        (.range (some ((i * step : Nat) : Int)) (some (((i + 1) * step : Nat) : Int)) none)))

/-- `flip(e, axis)` — misc/xmanipulation.hpp:824-845. -/
def flip (e : Strd) (axis : Nat) : Res Strd :=
  match e.shape[axis]?, e.strides[axis]? with
  | some n, some s =>
    mkStrd e.shape (e.strides.set axis (s * -1)) (e.offset + s * ((n : Int) - 1)) .dynamic
  | _, _ => .ub

/-- `rot90_impl<k>` — misc/xmanipulation.hpp:853-907. -/
def rot90Impl (k : Nat) (e : Strd) (a0 a1 : Nat) : Res Strd :=
  if a0 ≥ e.shape.length ∨ a1 ≥ e.shape.length then (if k = 0 then .ok e else .ub)
  else
    let axes := (((List.range e.shape.length).map Int.ofNat).set a0 a1).set a1 a0
    match k with
    | 0 => .ok e
    | 1 => (flip e a1).bind fun v => transposePerm v axes
    | 2 => (flip e a0).bind fun v => flip v a1
    | _ => (transposePerm e axes).bind fun v => flip v a1

/-- `rot90<N>(e, axes)` — misc/xmanipulation.hpp:920-934 (`N % 4` truncates). -/
def rot90 (N : Int) (e : Strd) (a0 a1 : Int) : Res Strd :=
  if a0 = a1 ∨ (a0 - a1).natAbs = e.shape.length then .throws
  else rot90Impl ((4 + N.tmod 4).tmod 4).toNat e (normalizeAxis e.shape.length a0) (normalizeAxis e.shape.length a1)

/-- A store — memory as a function of the storage position. -/
def updateAt {α : Type} (m : Int → α) (p : Int) (v : α) : Int → α := fun x => if x = p then v else m x

/-- Assignment of a view's elements through another view of the same storage (a temporary holds the
values) — misc/xmanipulation.hpp:808 with views/xstrided_view.hpp:397-402. -/
def assignThrough {α : Type} (mem : Int → α) (dst src : Strd) (indices : List (List Int)) : Int → α :=
  indices.foldl (fun m idx => updateAt m (dst.index idx) (mem (src.index idx))) mem

/-- Loop of `flip(e)` — misc/xmanipulation.hpp:806-809: `r = flip(r, d)` stores the flipped elements through
`r`.  `indices`: the indices of the common shape. -/
def flipAllLoop {α : Type} (indices : List (List Int)) (r : Strd) : Nat → Nat → (Int → α) → Res (Int → α)
  | 0, _, mem => .ok mem
  | k + 1, d, mem =>
    (flip r d).bind fun s => flipAllLoop indices r k (d + 1) (assignThrough mem r s indices)

/-- `flip(e)` — misc/xmanipulation.hpp:801-811: the view returned and the storage afterwards. -/
def flipAll {α : Type} (indices : List (List Int)) (e : Strd) (mem : Int → α) : Res (Strd × (Int → α)) :=
  (flip e 0).bind fun r => (flipAllLoop indices r (e.shape.length - 1) 1 mem).map fun m => (r, m)

/-! ### roll -/

/-- `while (shift < 0) shift += n` — misc/xmanipulation.hpp:963-966, 1067-1070; does not terminate for
`n = 0` (`none`). -/
def wrapShift (shift : Int) (n : Nat) : Option Int :=
  if 0 ≤ shift then some shift else if n = 0 then none else some (shift % n)

/-- `roll(e, shift)` — misc/xmanipulation.hpp:953-972: `vals` are the elements in traversal order;
division by zero and non-termination on empty arrays. -/
def rollFlat {α : Type} (vals : List α) (shift : Int) : Res (List α) :=
  match wrapShift shift vals.length with
  | none => .ub
  | some s =>
    if vals.length = 0 then .ub
    else
      let k := vals.length - (s % vals.length).toNat
      .ok (vals.drop k ++ vals.take k)

/-- `for (iter = from + lo * offset; iter != from + hi * offset; iter += offset)` with body `body` returning
the positions copied — misc/xmanipulation.hpp:994-1038; runs out of bounds if `hi < lo`. -/
def rollFor (lo hi : Int) (offset frm : Nat) (body : Nat → Option (List Nat)) : Option (List Nat) :=
  if offset = 0 then some []
  else if lo < 0 ∨ hi < lo then none
  else ((List.range' lo.toNat (hi - lo).toNat).mapM fun k => body (frm + k * offset)).map List.flatten

/-- `detail::roll` — misc/xmanipulation.hpp:980-1037: positions of the source copied to successive positions
of the destination; `axis` is relative to the first extent of the list. -/
def rollPositions (shift : Int) : Option Nat → List Nat → Nat → Option (List Nat)
  | _, [], _ => none
  | axis, d :: rest, frm =>
    let offset := rest.foldl (· * ·) 1
    let body : Nat → Option (List Nat) := match rest with
      | [] => fun p => some [p]
      | r :: rs => fun p => rollPositions shift (axis.bind fun a => if a = 0 then none else some (a - 1)) (r :: rs) p
    if axis = some 0 then
      (rollFor ((d : Int) - shift) d offset frm body).bind fun a =>
        (rollFor 0 ((d : Int) - shift) offset frm body).map fun b => a ++ b
    else rollFor 0 d offset frm body

/-- `roll(e, shift, axis)` — misc/xmanipulation.hpp:1050-1074: `saxis` is taken before the negative axis is
normalised, and `shift` is not reduced modulo the extent. -/
def rollAxis {α : Type} (sh : List Nat) (vals : List α) (shift axis : Int) : Res (List α) :=
  let axis' := if axis < 0 then axis + sh.length else axis
  let saxis := (axis % 2 ^ 64).toNat
  if saxis ≥ sh.length ∨ axis' < 0 then .throws
  else match wrapShift shift (sh.getD saxis 0) with
    | none => .ub
    | some s => match (rollPositions s (some saxis) sh 0).bind fun ps => ps.mapM fun p => vals[p]? with
      | none => .ub
      | some l => .ok l

end Xt
