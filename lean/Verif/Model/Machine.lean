import Verif.Model.Strides
import Verif.Spec.Machine
/-!
# Model: the arithmetic of `core/xstrides.hpp` on machine words

`Model/Strides` computes strides and offsets with unbounded integers.  Here are the same functions with the arithmetic
the machine does: signed values range from `-M` to `M - 1` and leaving the range is undefined (`none`); unsigned values
are taken modulo `2 M`; a conversion to the signed type keeps the value modulo `2 M`.  `std::ptrdiff_t` and
`std::size_t` of 64 bits have `M = 2 ^ 63`.
-/

namespace Xt

/-- A signed result: undefined if it does not fit. -/
def chk (M : Nat) (v : Int) : Option Int := if -(M : Int) ≤ v ∧ v < (M : Int) then some v else none

/-- An unsigned result. -/
def wrapU (M : Nat) (v : Int) : Nat := (v % (2 * M : Int)).toNat

/-- `static_cast` of an unsigned value to the signed type of the same size. -/
def toSigned (M : Nat) (u : Nat) : Int :=
  let r := u % (2 * M)
  if r < M then (r : Int) else (r : Int) - 2 * M

/-- `compute_size` of unsigned extents — core/xstrides.hpp:336-343. -/
def computeSizeU (M : Nat) (shape : List Nat) : Nat := shape.foldl (fun (a s : Nat) => wrapU M ((a : Int) * (s : Int))) 1

/-- `compute_size` of signed extents, before the absolute value — core/xstrides.hpp:327-334. -/
def computeSizeS (M : Nat) (shape : List Nat) : Option Int :=
  shape.foldl (fun (a : Option Int) (s : Nat) => a.bind fun v => chk M (v * (s : Int))) (some 1)

/-- `(*backstrides)[i] = strides[i] * std::ptrdiff_t(shape[i] - 1)`, the subtraction unsigned —
    core/xstrides.hpp:511. -/
def backstrideS (M : Nat) (s : Nat) (st : Int) : Option Int := chk M (st * toSigned M (wrapU M ((s : Int) - 1)))

/-- Row-major loop of `detail::compute_strides`: strides, backstrides and `data_size` — core/xstrides.hpp:543-551. -/
def rowStridesS (M : Nat) : List Nat → Option (List Int × List Int × Int)
  | [] => some ([], [], 1)
  | s :: ss =>
    (rowStridesS M ss).bind fun r =>
      (chk M (r.2.2 * toSigned M s)).bind fun ds =>
        (backstrideS M s (adaptStride s r.2.2)).map fun b => (adaptStride s r.2.2 :: r.1, b :: r.2.1, ds)

/-- Column-major loop of `detail::compute_strides` — core/xstrides.hpp:552-560. -/
def colStridesS (M : Nat) (ds : Int) : List Nat → Option (List Int × List Int × Int)
  | [] => some ([], [], ds)
  | s :: ss =>
    (chk M (ds * toSigned M s)).bind fun ds' =>
      (backstrideS M s (adaptStride s ds)).bind fun b =>
        (colStridesS M ds' ss).map fun r => (adaptStride s ds :: r.1, b :: r.2.1, r.2.2)

/-- `compute_strides<L>(shape, l, strides, backstrides)` — core/xstrides.hpp:528-576. -/
def computeStridesS (M : Nat) (L l : Layout) (shape : List Nat) : Option (List Int × List Int × Int) :=
  if L = .row_major ∨ l = .row_major then rowStridesS M shape else colStridesS M 1 shape

/-- `detail::raw_data_offset` — core/xstrides.hpp:357-376. -/
def rawDataOffsetS (M : Nat) : List Int → List Int → Option Int
  | _, [] => some 0
  | [], _ :: _ => some 0
  | st :: sts, a :: as =>
    (chk M (a * st)).bind fun p => (rawDataOffsetS M sts as).bind fun r => chk M (p + r)

/-- `detail::layout_data_offset<L, static_dim>::run<dim>` — core/xstrides.hpp:378-443. -/
def layoutDataOffsetS (M : Nat) (L : Layout) (sd : Option Nat) : Nat → List Int → List Int → Option Int
  | _, _, [] => some 0
  | _, [], _ :: _ => some 0
  | dim, st :: sts, a :: as =>
    match L with
    | .row_major =>
      if as = [] then (if sd = some (dim + 1) then some a else chk M (a * st))
      else (chk M (a * st)).bind fun p => (layoutDataOffsetS M L sd (dim + 1) sts as).bind fun r => chk M (p + r)
    | .column_major =>
      (if dim = 0 then some a else chk M (a * st)).bind fun p =>
        (layoutDataOffsetS M L sd (dim + 1) sts as).bind fun r => chk M (p + r)
    | _ => (chk M (a * st)).bind fun p => (layoutDataOffsetS M L sd (dim + 1) sts as).bind fun r => chk M (p + r)

/-- `std::inner_product` of `element_offset` over indices of a signed type — core/xstrides.hpp:487-495. -/
def innerProductS (M : Nat) : List Int → List Int → Int → Option Int
  | a :: as, b :: bs, acc => (chk M (a * b)).bind fun p => (chk M (acc + p)).bind fun acc' => innerProductS M as bs acc'
  | _, _, acc => some acc

/-- The same over indices of `std::size_t`: the stride and the running sum are converted to unsigned, and the sum back —
    core/xstrides.hpp:487-495. -/
def innerProductU (M : Nat) : List Nat → List Int → Int → Int
  | a :: as, b :: bs, acc =>
    innerProductU M as bs (toSigned M (wrapU M ((wrapU M acc : Int) + (wrapU M ((a : Int) * (wrapU M b : Int)) : Int))))
  | _, _, acc => acc

/-- One step of `detail::unravel_noexcept` — core/xstrides.hpp:653-656. -/
def unravelStepS (M : Nat) (idx str : Int) : Option (Int × Int) :=
  if str ≠ 0 then (chk M (idx.tdiv str)).map fun q => (q, idx.tmod str) else some (0, idx)

/-- Row-major loop of `unravel_noexcept` — core/xstrides.hpp:649-658. -/
def unravelRowS (M : Nat) : Int → List Int → Option (List Int)
  | _, [] => some []
  | idx, st :: sts => (unravelStepS M idx st).bind fun q => (unravelRowS M q.2 sts).map fun r => q.1 :: r

/-- Column-major loop of `unravel_noexcept` — core/xstrides.hpp:659-668. -/
def unravelColS (M : Nat) (idx : Int) : List Int → Option (List Int × Int)
  | [] => some ([], idx)
  | st :: sts =>
    (unravelColS M idx sts).bind fun r => (unravelStepS M r.2 st).map fun q => (q.1 :: r.1, q.2)

/-- `detail::compute_stride_impl` — core/xstrides.hpp:204-226. -/
def computeStrideImplS (M : Nat) (l : Layout) (shape : List Nat) (axis : Nat) (dflt : Int) : Option Int :=
  let step := fun (a : Option Int) (s : Nat) => a.bind fun v => chk M (v * toSigned M s)
  if l = .row_major then (shape.drop (axis + 1)).foldl step (some 1)
  else if l = .column_major then (shape.take axis).foldl step (some 1)
  else some dflt

end Xt
