import Verif.Model.Basic
import Verif.Model.Expr
import Mathlib.Data.Rat.Floor
/-!
# Model of `generators/xbuilder.hpp` and of element access in `generators/xgenerator.hpp`

Floating point numbers are modelled by rationals (rounding, infinities and NaN are ignored).
-/

namespace Xt

/-! ## xgenerator -/

/-- `xgenerator` — generators/xgenerator.hpp:55-213: shape and functor.  The functor's `operator()` and
`element` take the same index in every builder, so one function stands for both. -/
structure Gen (α : Type) where
  shape : List Nat
  f : List Nat → Res α

/-- Loop of `adapt_index<dim>` once the surplus leading arguments are passed — generators/xgenerator.hpp:496-511.
The axes are paired with the arguments from the first on, also when there are fewer arguments than axes. -/
def adaptTail : List Nat → List Nat → List Nat
  | n :: sh, a :: args => (if a ≥ n ∧ n = 1 then 0 else a) :: adaptTail sh args
  | _, args => args

/-- `xgenerator::adapt_index` — generators/xgenerator.hpp:490-511: arguments beyond the dimension are left alone,
out-of-range arguments on unit axes become 0. -/
def adaptIndex (shape args : List Nat) : List Nat :=
  args.take (args.length - shape.length) ++ adaptTail shape (args.drop (args.length - shape.length))

/-- `xgenerator::operator()` — generators/xgenerator.hpp:276-283: every argument is handed to the functor. -/
def Gen.call {α : Type} (g : Gen α) (args : List Nat) : Res α := g.f (adaptIndex g.shape args)

/-- `xgenerator::element` — generators/xgenerator.hpp:316-325 with `xbounded_iterator::operator*`
(core/xiterator.hpp:1260-1264).  A longer index reads bounds past the shape. -/
def Gen.elem {α : Type} (g : Gen α) (idx : List Nat) : Res α :=
  if idx.length > g.shape.length then .ub
  else g.f (List.zipWith (fun n i => min i (n - 1)) g.shape idx)

/-! ## arange, linspace -/

/-- The value fits a signed integer of `w` bits; otherwise the operation is undefined. -/
def signedFit (w : Nat) (x : Int) : Res Int :=
  if -(2 ^ (w - 1) : Int) ≤ x ∧ x < 2 ^ (w - 1) then .ok x else .ub

/-- Number of elements of `arange_impl` over signed integers of `w` bits (`w` at least the width of `int`)
— generators/xbuilder.hpp:300-311. -/
def arangeSizeSigned (w : Nat) (start stop step : Int) : Res Nat :=
  (signedFit w (stop - start)).bind fun d =>
    if step = 0 then .ub
    else (signedFit w (d.tdiv step)).bind fun q =>
      if q ≤ 0 then .ok 0
      else if stop > start then
        (signedFit w (d + step)).bind fun s => .ok ((s - 1).tdiv step).toNat
      else
        (signedFit w (start - stop)).bind fun d' => (signedFit w (d' - step)).bind fun s =>
          .ok ((s - 1).tdiv (-step)).toNat

/-- The same over unsigned integers of `w` bits — generators/xbuilder.hpp:313-323: arithmetic wraps. -/
def arangeSizeUnsigned (w start stop step : Nat) : Res Nat :=
  if stop ≤ start then .ok 0
  else if step = 0 then .ub
  else .ok (((stop - start + step - 1) % 2 ^ w) / step)

/-- The same over floating point numbers — generators/xbuilder.hpp:293-298: converting a negative number to
`size_t` is undefined, so is converting the infinity or NaN a zero step gives. -/
def arangeSizeReal (start stop step : Rat) : Res Nat :=
  if step = 0 then .ub
  else if ⌈(stop - start) / step⌉ < 0 then .ub
  else .ok ⌈(stop - start) / step⌉.toNat

/-- `arange_generator::access_impl` — generators/xbuilder.hpp:266-281, reached by `operator()` (lines 240-244) and
`element` (246-250): the first index is used. -/
def arangeAt {K : Type} [Add K] [Mul K] [NatCast K] (start stop step : K) (n : Nat) (endpoint : Bool) : List Nat → K
  | [] => start
  | t :: _ => if endpoint ∧ n > 1 ∧ t = n - 1 then stop else start + step * (t : K)

/-- `arange` over signed integers — generators/xbuilder.hpp:300-311. -/
def arangeSigned (w : Nat) (start stop step : Int) : Res (Gen Int) :=
  (arangeSizeSigned w start stop step).map fun n => { shape := [n], f := fun idx => .ok (arangeAt start stop step n false idx) }

/-- `arange` over floating point numbers — generators/xbuilder.hpp:293-298. -/
def arangeReal (start stop step : Rat) : Res (Gen Rat) :=
  (arangeSizeReal start stop step).map fun n => { shape := [n], f := fun idx => .ok (arangeAt start stop step n false idx) }

/-- Integral loop of `arange_assign_to` — generators/xbuilder.hpp:193-204, over a storage of `n` elements. -/
def arangeFill (step : Int) : Nat → Int → List Int
  | 0, _ => []
  | n + 1, value => value :: arangeFill step n (value + step)

/-- Other overload of `arange_assign_to` — generators/xbuilder.hpp:206-221. -/
def arangeFillReal (start stop step : Rat) (endpoint : Bool) (num : Nat) : List Rat :=
  let buf := (List.range num).map fun (i : Nat) => start + step * (i : Rat)
  if endpoint ∧ num > 1 then buf.set (num - 1) stop else buf

/-- `linspace` — generators/xbuilder.hpp:460-469. `num_samples - 1` with no sample wraps to the largest
`size_t`. -/
def linspaceStep (start stop : Rat) (num : Nat) (endpoint : Bool) : Rat :=
  let m : Nat := if endpoint then (if num = 0 then 2 ^ 64 - 1 else num - 1) else num
  (stop - start) / max 1 (m : Rat)

/-- The expression `linspace` returns — generators/xbuilder.hpp:464-468. -/
def linspace (start stop : Rat) (num : Nat) (endpoint : Bool) : Gen Rat :=
  { shape := [num], f := fun idx => .ok (arangeAt start stop (linspaceStep start stop num endpoint) num endpoint idx) }

/-! ## concatenate, stack -/

/-- An operand: its shape and its values in the order of `begin()` (row major). -/
structure Opd (α : Type) where
  shape : List Nat
  vals : List α
deriving DecidableEq, Repr

/-- `*(arr.begin() + offset)`: undefined past the end. -/
def Opd.flat {α : Type} (o : Opd α) (offset : Nat) : Res α :=
  match o.vals[offset]? with
  | some v => .ok v
  | none => .ub

/-- `size_t` arithmetic. -/
def wrap64 (x : Int) : Nat := (x % 2 ^ 64).toNat

/-- Conversion to `int` (32 bits, two's complement). -/
def toInt32 (x : Nat) : Int := ((x : Int) + 2 ^ 31) % 2 ^ 32 - 2 ^ 31

/-- `std::accumulate(b, e, 1, std::multiplies<size_t>())` — generators/xbuilder.hpp:520-525, 576-581: the literal
`1` makes the accumulator an `int`, converted back and forth around every product. -/
def tailStride (tail : List Nat) : Nat :=
  wrap64 (tail.foldl (fun (acc : Int) (d : Nat) => toInt32 (wrap64 (wrap64 acc * d))) 1)

/-- Offset loop of `get` — generators/xbuilder.hpp:513-538: `i` is the current axis, `idx` the remaining indices. -/
def concatOffset (axis axisDim : Nat) : Nat → List Nat → List Nat → Nat
  | i, _ :: sh, x :: idx =>
    wrap64 ((if i = axis then axisDim else x) * tailStride sh + concatOffset axis axisDim (i + 1) sh idx)
  | _, _, _ => 0

/-- Search loop and access — generators/xbuilder.hpp:503-511, 540-548.  `apply` past the last operand gives a
value-initialised result. -/
def concatSearch {α : Type} [Inhabited α] (axis : Nat) (idx : List Nat) : Nat → List (Opd α) → Res α
  | _, [] => .ok default
  | axisDim, o :: ops =>
    if axisDim ≥ o.shape.getD axis 0 then concatSearch axis idx (axisDim - o.shape.getD axis 0) ops
    else o.flat (concatOffset axis axisDim 0 o.shape idx)

/-- `concatenate_access::access` — generators/xbuilder.hpp:497-549: surplus leading indices are skipped; with fewer
indices than axes it reads in front of them. -/
def concatAccess {α : Type} [Inhabited α] (axis : Nat) (ops : List (Opd α)) (args : List Nat) : Res α :=
  match ops with
  | [] => .ub
  | o :: _ =>
    if args.length < o.shape.length then .ub
    else
      match (args.drop (args.length - o.shape.length))[axis]? with
      | none => .ub
      | some a => concatSearch axis (args.drop (args.length - o.shape.length)) a ops

/-- `check_shape` — generators/xbuilder.hpp:783-796; `arr.shape(i)` past the dimension of `arr` is not read because
`res` is already false. -/
def concatCheck (axis : Nat) (new sh : List Nat) : Bool :=
  (List.range new.length).foldl (fun res i => res && (i == axis || new[i]? == sh[i]?)) (new.length == sh.length)

/-- `concat_shape_builder_t::build` — generators/xbuilder.hpp:774-805: the tuple is not empty, an axis past the
dimension is written out of bounds. -/
def concatShape {α : Type} (axis : Nat) (ops : List (Opd α)) : Res (List Nat) :=
  match ops with
  | [] => .ub
  | o :: _ =>
    if ops.any fun p => !concatCheck axis o.shape p.shape then .throws
    else if axis ≥ o.shape.length then .ub
    else .ok (o.shape.set axis (wrap64 ((o.shape.getD axis 0 : Int) +
      ((ops.foldl (fun (prev : Nat) p => prev + p.shape.getD axis 0) 0 : Nat) - (o.shape.getD axis 0 : Int)))))

/-- `concatenate(xtuple(...), axis)` — generators/xbuilder.hpp:829-834. -/
def concatenate {α : Type} [Inhabited α] (ops : List (Opd α)) (axis : Nat) : Res (Gen α) :=
  (concatShape axis ops).map fun sh => { shape := sh, f := concatAccess axis ops }

/-- Offset loop of `get_item` — generators/xbuilder.hpp:564-587: axis `i` of the operand takes index
`i + after_axis`; missing indices are read out of bounds. -/
def stackOffset (axis : Nat) (args : List Nat) : Nat → Nat → List Nat → Option Nat
  | _, _, [] => some 0
  | i, after, _ :: sh =>
    let after' := if i = axis then 1 else after
    match args[i + after']?, stackOffset axis args (i + 1) after' sh with
    | some x, some r => some (wrap64 (x * tailStride sh + r))
    | _, _ => none

/-- `stack_access::access` — generators/xbuilder.hpp:561-590. -/
def stackAccess {α : Type} [Inhabited α] (axis : Nat) (ops : List (Opd α)) (args : List Nat) : Res α :=
  match args[axis]? with
  | none => .ub
  | some i =>
    match ops[i]? with
    | none => .ok default
    | some o =>
      match stackOffset axis args 0 0 o.shape with
      | none => .ub
      | some off => o.flat off

/-- `stack(xtuple(...), axis)` — generators/xbuilder.hpp:882-893 with `add_axis` (845-861): only the shape of the
first operand is looked at. -/
def stackGen {α : Type} [Inhabited α] (ops : List (Opd α)) (axis : Nat) : Res (Gen α) :=
  match ops with
  | [] => .ub
  | o :: _ =>
    if axis > o.shape.length then .ub
    else .ok { shape := o.shape.insertIdx axis ops.length, f := stackAccess axis ops }

/-- `hstack` — generators/xbuilder.hpp:903-909. -/
def hstack {α : Type} [Inhabited α] (ops : List (Opd α)) : Res (Gen α) :=
  match ops with
  | [] => .ub
  | o :: _ => concatenate ops (if o.shape.length > 1 then 1 else 0)

/-- `vstack` — generators/xbuilder.hpp:939-949, `vstack_shape` (913-928) and `vstack_access` (593-619): one-dimensional
operands are stacked without looking at the other shapes. -/
def vstack {α : Type} [Inhabited α] (ops : List (Opd α)) : Res (Gen α) :=
  match ops with
  | [] => .ub
  | o :: _ =>
    if o.shape.length = 1 then .ok { shape := [ops.length, o.shape.getD 0 0], f := stackAccess 0 ops }
    else concatenate ops 0

/-- `repeat_impl` — generators/xbuilder.hpp:666-700: the component reads its one-dimensional source at one of the
indices. -/
def repeatAt {α : Type} (axis : Nat) (src : Opd α) (args : List Nat) : Res α :=
  match args[axis]? with
  | none => .ub
  | some i => src.flat i

/-- `meshgrid(e...)` — generators/xbuilder.hpp:951-983. -/
def meshgrid {α : Type} (es : List (Opd α)) : List (Gen α) :=
  es.zipIdx.map fun p => { shape := es.map fun e => e.shape.getD 0 0, f := repeatAt p.2 p.1 }

/-! ## eye, diag, diagonal, tril, triu -/

/-- `eye_fn::operator()` — generators/xbuilder.hpp:380-385 through `fn_impl` (325-366): the two last indices are
compared in `size_t` arithmetic; with fewer than two it reads in front of them. -/
def eyeAt (k : Int) (args : List Nat) : Res Nat :=
  match args.reverse with
  | col :: row :: _ => .ok (if col = wrap64 (row + k) then 1 else 0)
  | _ => .ub

/-- `eye(shape, k)` — generators/xbuilder.hpp:402-406. -/
def eye (shape : List Nat) (k : Int) : Gen Nat := { shape := shape, f := eyeAt k }

/-- `diag_fn::operator()` — generators/xbuilder.hpp:1054-1067. -/
def diagAt {α : Type} [Zero α] (src : Nat → Res α) (k : Int) (args : List Nat) : Res α :=
  match args with
  | row :: col :: _ =>
    if k > 0 then (if wrap64 (row + k) = col then src row else .ok 0)
    else (if wrap64 (row + k) = col then src (wrap64 (row + k)) else .ok 0)
  | _ => .ub

/-- `diag(arr, k)` — generators/xbuilder.hpp:1201-1211, for a source of `n` elements. -/
def diag {α : Type} [Zero α] (n : Nat) (src : Nat → Res α) (k : Int) : Gen α :=
  { shape := [n + k.natAbs, n + k.natAbs], f := diagAt src k }

/-- Index loop of `diagonal_fn` — generators/xbuilder.hpp:1007-1015: the coordinates off the two axes are taken in
order; gives them and what is left. -/
def diagonalFree (a b : Nat) : Nat → Nat → List Nat → Option (List Nat × List Nat)
  | _, 0, args => some ([], args)
  | i, n + 1, args =>
    if i ≠ a ∧ i ≠ b then
      match args with
      | [] => none
      | x :: args => (diagonalFree a b (i + 1) n args).map fun r => (x :: r.1, r.2)
    else (diagonalFree a b (i + 1) n args).map fun r => (0 :: r.1, r.2)

/-- `diagonal_fn::operator()` — generators/xbuilder.hpp:1004-1029. -/
def diagonalAt {α : Type} (dim : Nat) (src : List Nat → Res α) (offset : Int) (a b : Nat) (args : List Nat) : Res α :=
  match diagonalFree a b 0 dim args with
  | some (idx, t :: _) =>
    if a ≥ dim ∨ b ≥ dim then .ub
    else if offset ≥ 0 then src ((idx.set a t).set b (wrap64 (t + offset)))
    else src ((idx.set a (wrap64 (t - wrap64 offset))).set b t)
  | _ => .ub

/-- Loop over the other axes in `diagonal` — generators/xbuilder.hpp:1168-1175. -/
def diagonalRest (a b : Nat) : Nat → List Nat → List Nat
  | _, [] => []
  | i, n :: sh => if i ≠ a ∧ i ≠ b then n :: diagonalRest a b (i + 1) sh else diagonalRest a b (i + 1) sh

/-- Shape of `diagonal(arr, offset, axis_1, axis_2)` — generators/xbuilder.hpp:1149-1177: extents are `int`s, a negative
number of elements becomes a huge `size_t`; `a` and `b` differ and lie within the dimension. -/
def diagonalShape (shape : List Nat) (offset : Int) (a b : Nat) : List Nat :=
  let d1 := toInt32 (shape.getD a 0)
  let d2 := toInt32 (shape.getD b 0)
  let d2' := if offset ≥ 0 then d2 - offset else d2
  let d1' := if offset ≥ 0 then d1 else d1 + offset
  diagonalRest a b 0 shape ++ [wrap64 (if d2' < d1' then d2' else d1')]

/-- `diagonal(arr, offset, axis_1, axis_2)` — generators/xbuilder.hpp:1149-1185. -/
def diagonal {α : Type} (shape : List Nat) (src : List Nat → Res α) (offset : Int) (a b : Nat) : Gen α :=
  { shape := diagonalShape shape offset a b, f := diagonalAt shape.length src offset a b }

/-- `trilu_fn::operator()` — generators/xbuilder.hpp:1091-1099: the first two indices decide. -/
def triluAt {α : Type} [Zero α] (comp : Int → Int → Bool) (src : List Nat → Res α) (k : Int) (args : List Nat) : Res α :=
  match args with
  | row :: col :: _ => if comp (row + k) col then src args else .ok 0
  | _ => .ub

/-- `tril(arr, k)` — generators/xbuilder.hpp:1222-1238. -/
def tril {α : Type} [Zero α] (shape : List Nat) (src : List Nat → Res α) (k : Int) : Gen α :=
  { shape := shape, f := triluAt (fun a b => decide (a ≥ b)) src k }

/-- `triu(arr, k)` — generators/xbuilder.hpp:1248-1259. -/
def triu {α : Type} [Zero α] (shape : List Nat) (src : List Nat → Res α) (k : Int) : Gen α :=
  { shape := shape, f := triluAt (fun a b => decide (a ≤ b)) src k }

end Xt
