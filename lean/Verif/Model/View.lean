import Verif.Model.Slice
/-!
# Model of `views/xview.hpp` and `views/xview_utils.hpp`: element access, shape, strides, offset

A view is the parent shape and the list of bound slices.  The counting helpers of the C++ code are
compile-time functions of the slice *types*; here they look at the constructors.
-/

namespace Xt

/-- Integral slice type. -/
def Sl.isInt : Sl → Bool
  | .int _ => true
  | _ => false

/-- `xnewaxis` slice type. -/
def Sl.isNew : Sl → Bool
  | .newaxis => true
  | _ => false

/-- `xnewaxis` slice type, user slices. -/
def USlice.isNew : USlice → Bool
  | .newaxis => true
  | _ => false

/-- `integral_count_before<S...>(i)` — views/xview_utils.hpp:96-131. -/
def integralCountBefore (S : List Sl) (i : Nat) : Nat := (S.take i).countP Sl.isInt

/-- `integral_count<S...>()` — views/xview_utils.hpp:121-125. -/
def integralCount (S : List Sl) : Nat := S.countP Sl.isInt

/-- `newaxis_count_before<S...>(i)` — views/xview_utils.hpp:137-182. -/
def newaxisCountBefore (S : List Sl) (i : Nat) : Nat := (S.take i).countP Sl.isNew

/-- `newaxis_count<S...>()` — views/xview_utils.hpp:172-176. -/
def newaxisCount (S : List Sl) : Nat := S.countP Sl.isNew

/-- `integral_skip_impl::count` (with `p` = integral) and `newaxis_skip_impl::count` (with `p` =
newaxis) — views/xview_utils.hpp:188-281. -/
def skipImpl (p : Sl → Bool) : List Sl → Nat → Nat
  | [], i => i
  | t :: S, 0 => if p t then 1 + skipImpl p S 0 else 0
  | t :: S, i + 1 => 1 + (if p t then skipImpl p S (i + 1) else skipImpl p S i)

/-- `integral_skip<S...>(i)` — views/xview_utils.hpp:229-233. -/
def integralSkip (S : List Sl) (i : Nat) : Nat := skipImpl Sl.isInt S i

/-- `newaxis_skip<S...>(i)` — views/xview_utils.hpp:277-281. -/
def newaxisSkip (S : List Sl) (i : Nat) : Nat := skipImpl Sl.isNew S i

/-- `make_view_impl` — views/xview.hpp:1774-1812: slice `j` is bound to axis
`j - newaxis_count_before(j)` of the parent.  Reading an extent beyond the parent's dimension is
undefined. `pre` is the number of non-newaxis slices already bound. -/
def bindSlices (shape : List Nat) (pre : Nat) : List USlice → Res (List Sl)
  | [] => .ok []
  | u :: us =>
    match (if u.isNew then getSlice 0 u else
        match shape[pre]? with
        | some n => getSlice n u
        | none => .ub) with
    | .ok s => (bindSlices shape (if u.isNew then pre else pre + 1) us).map (s :: ·)
    | .throws => .throws
    | .ub => .ub

/-- `view(e, slices...)` — views/xview.hpp:1823-1831. -/
def makeView (shape : List Nat) (us : List USlice) : Res (List Sl) := bindSlices shape 0 us

/-- `dimension()` of the view as computed in `compute_shape` — views/xview.hpp:1732. -/
def viewDim (shape : List Nat) (S : List Sl) : Nat :=
  shape.length - integralCount S + newaxisCount S

/-- `compute_shape(false_type)` — views/xview.hpp:1729-1745. -/
def viewShape (shape : List Nat) (S : List Sl) : List Int :=
  (List.range (viewDim shape S)).map fun i =>
    let index := integralSkip S i
    match S[index]? with
    | some s => s.size
    | none => ((shape.getD (index - newaxisCountBefore S index) 0 : Nat) : Int)

/-- `sliced_access<pos>(slice, args...)` — views/xview.hpp:1660-1681; `none`: `argument<pos>` with
`pos` beyond the arguments, rejected at compile time. -/
def slicedAccess (pos : Nat) (s : Sl) (args : List Int) : Option Int :=
  match s with
  | .int c => some c
  | s => if args.isEmpty then some (s.value 0) else (args[pos]?).map s.value

/-- `index<I>(args...)` — views/xview.hpp:1643-1657. -/
def viewIndexAt (S : List Sl) (args : List Int) (I : Nat) : Option Int :=
  match S[I + newaxisCountBefore S (I + 1)]? with
  | some s => slicedAccess (I - integralCountBefore S I + newaxisCountBefore S (I + 1)) s args
  | none => args[I - integralCount S + newaxisCount S]?

/-- `operator()(args...)`: the index passed to the parent — views/xview.hpp:1020-1028 (operator()),
1535-1541 (`make_index_sequence`), 1583-1590 (`access`, dropping leading arguments while there are
more than the view's dimension), 1630-1633 (`access_impl`). `none`: does not compile. -/
def viewAccess (shape : List Nat) (S : List Sl) (args : List Int) : Option (List Int) :=
  let args := args.drop (args.length - viewDim shape S)
  (List.range (args.length + integralCount S - newaxisCount S)).mapM (viewIndexAt S args)

/-- `make_index(first, last)`: the index passed to the parent by `element(first, last)` and
`operator[]` — views/xview.hpp:1683-1720. -/
def viewMakeIndex (shape : List Nat) (S : List Sl) (args : List Int) : List Int :=
  let args := args.drop (args.length - min args.length (viewDim shape S))
  (List.range shape.length).map fun i =>
    let k := newaxisSkip S i
    match args[k - integralCountBefore S i]? with
    | some a => match S[k]? with
      | some s => s.value a
      | none => a
    | none => match S[k]? with
      | some s => s.value 0
      | none => 0

/-- The loops of `data_offset_impl` — views/xview.hpp:1311-1330: position `i`, number of newaxes
seen so far, remaining slices. -/
def viewOffsetLoop (pst : List Int) (i news : Nat) : List Sl → Int
  | [] => 0
  | s :: S => s.value 0 * (if i < pst.length then pst.getD (i - news) 0 else 1) +
      viewOffsetLoop pst (i + 1) (news + if s.isNew then 1 else 0) S

/-- `data_offset()` — views/xview.hpp:1311-1345; `poff` is the parent's data offset. -/
def viewDataOffset (pst : List Int) (poff : Int) (S : List Sl) : Int :=
  viewOffsetLoop pst 0 0 S + poff

/-- `compute_strides(false_type)` without the final adaptation — views/xview.hpp:1543-1577. -/
def viewRawStrides (shape : List Nat) (pst : List Int) (S : List Sl) : List Int :=
  let nStrides := S.length - integralCount S
  (List.range (viewDim shape S)).map fun i =>
    if i < nStrides then
      let k := integralSkip S i
      let a := k - newaxisCountBefore S k
      ((S[k]?).elim 0 (fun s => s.stepSize 1 1)) * (if a < shape.length then pst.getD a 0 else 1)
    else pst.getD (i + integralCount S - newaxisCount S) 0

/-- `strides()` — views/xview.hpp:1557-1577 with `detail::adapt_strides`
(core/xstrides.hpp:500-512). -/
def viewStrides (shape : List Nat) (pst : List Int) (S : List Sl) : List Int :=
  List.zipWith (fun (s : Int) st => if s = 1 then 0 else st) (viewShape shape S)
    (viewRawStrides shape pst S)

end Xt
