import Verif.Model.Assembly
import Verif.Model.StridedView
import Verif.Model.IndexView
/-!
# Model: lists of indices as arrays, and trimmed sequences

Source: containers/xtensor.hpp:851-980, misc/xmanipulation.hpp:463-499 (under /repo/include/xtensor).

A `std::vector` of indices is a list of lists.  Results with one axis are lists.
-/

namespace Xt
open Spec

variable {α : Type}

/-- `idx[i][j]`. -/
def idxAt (idx : List (List α)) (i j : Nat) : Res α := orUb ((idx[i]?).bind fun (r : List α) => r[j]?)

/-- `out(i, j) = idx[i][j]`. -/
def fromIndicesStep (idx : List (List α)) (r : Res (Cont α)) (ij : Nat × Nat) : Res (Cont α) :=
  r.bind fun (c : Cont α) => (idxAt idx ij.1 ij.2).bind fun (x : α) => c.put (toInts [ij.1, ij.2]) x

/-- The pairs of two nested loops. -/
def loopPairs (n m : Nat) : List (Nat × Nat) :=
  (List.range n).flatMap fun (i : Nat) => (List.range m).map fun (j : Nat) => (i, j)

/-- `from_indices(idx)` — containers/xtensor.hpp:858-880.  `d` is the default layout, `fresh` what new memory holds,
`x` what a default-constructed element holds. -/
def fromIndices (d : Layout) (fresh : Nat → List α) (x : α) (idx : List (List α)) : Res (Cont α) :=
  match idx with
  | [] => contOfShape d fresh d 2 x [0, 0] d
  | r :: _ =>
    (loopPairs idx.length r.length).foldl (fromIndicesStep idx) (contOfShape d fresh d 2 x [idx.length, r.length] d)

/-- `flatten_indices(idx)` — containers/xtensor.hpp:890-912: every index is copied behind the previous one; `ub`: written
past the end. -/
def flattenIndices (fresh : Nat → List α) (idx : List (List α)) : Res (List α) :=
  let n := idx.length * (idx.head?.map List.length).getD 1
  if n < idx.flatten.length then .ub else .ok (idx.flatten ++ (fresh n).drop idx.flatten.length)

/-- `ravel_indices(idx, shape, l)` — containers/xtensor.hpp:958-979, for both kinds of results (914-944); no index and
no layout is refused. -/
def ravelIndices (idx : List (List Int)) (shape : List Nat) (l : Layout) : List Int :=
  let strides := (computeStrides .dynamic l shape).1
  idx.map fun (i : List Int) => elementOffset strides i

/-- `begin` in `trim_zeros` — misc/xmanipulation.hpp:488-491: `std::find_if(cbegin(), cend(), i != 0)`. -/
def trimBegin (isZero : α → Bool) (front : Bool) (l : List α) : Nat :=
  if front then (l.takeWhile isZero).length else 0

/-- `end` — misc/xmanipulation.hpp:493-496. -/
def trimEnd (isZero : α → Bool) (front back : Bool) (l : List α) : Nat :=
  if back = true ∧ trimBegin isZero front l ≠ l.length then l.length - (l.reverse.takeWhile isZero).length else l.length

/-- `trim_zeros(e, direction)` — misc/xmanipulation.hpp:476-499, of a strided expression: `vals` its elements in the
order of `cbegin()`, `front` and `back` whether the letters occur in `direction`. -/
def trimZeros (isZero : α → Bool) (sh : List Nat) (st : List Int) (off : Int) (l : Layout) (vals : List α)
    (front back : Bool) : Res SView :=
  stridedView sh st off l
    [.range (some (trimBegin isZero front vals)) (some (trimEnd isZero front back vals)) none]

end Xt
