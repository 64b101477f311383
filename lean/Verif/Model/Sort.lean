import Verif.Model.Manip
import Verif.Model.Builder
import Verif.Spec.Index
import Mathlib.Order.Defs.LinearOrder
import Mathlib.Data.List.Sort
/-!
# Model: sorting functions (`misc/xsort.hpp`)

The standard algorithms are parameters constrained by their contracts (`SortBy`, `NthBy`), except
`std::stable_sort`, whose result is determined by its contract and is written as an insertion sort.
The argument of a function is a strided expression `Strd` over a storage `mem : Int → α` whose element 0 is
`data()[0]`; the containers the functions create are buffers.
-/

namespace Xt

open Spec (toInts rowIndices colIndices rowRank colRank)

/-- A container created by a sorting function: shape, layout and storage; strides are those
`resize` computes — containers/xcontainer.hpp:1032-1050. -/
structure Buf (α : Type) where
  shape : List Nat
  layout : Layout
  data : List α
  deriving DecidableEq, Repr

/-- Strides of a container after `resize` — containers/xcontainer.hpp:1000-1050. -/
def Buf.strides {α : Type} (b : Buf α) : List Int := (computeStrides b.layout b.layout b.shape).1

/-- A container seen as a strided expression. -/
def Buf.strd {α : Type} (b : Buf α) : Strd := ⟨b.shape, b.strides, 0, b.layout⟩

/-- Storage of a container. -/
def Buf.mem {α : Type} [Inhabited α] (b : Buf α) (k : Int) : α := b.data.getD k.toNat default

/-- Element of a container at an index — containers/xcontainer.hpp:459-468. -/
def Buf.read {α : Type} [Inhabited α] (b : Buf α) (q : List Nat) : α := b.mem (b.strd.index (toInts q))

/-- Element of a strided expression at an index. -/
def Strd.read {α : Type} (v : Strd) (mem : Int → α) (q : List Nat) : α := mem (v.index (toInts q))

/-- Indices of a shape in the storage order of a layout. -/
def storageIndices (L : Layout) (sh : List Nat) : List (List Nat) :=
  if L = .row_major then rowIndices sh else colIndices sh

/-- `R res = e` for a container type `R` of layout `L` — core/xassign.hpp:215-225, 482-488.  Simplified: the
element-by-element assignment stores each element at the position of its index (this is C24). -/
def copyTo {α : Type} (L : Layout) (v : Strd) (mem : Int → α) : Buf α :=
  ⟨v.shape, L, (storageIndices L v.shape).map (v.read mem)⟩

/-- `adjust_secondary_stride` — misc/xsort.hpp:43-47. -/
def adjustStride (st : Int) (sh : Nat) : Int := if st ≠ 0 then st else (sh : Int)

/-- `get_secondary_stride` — misc/xsort.hpp:49-58. -/
def secondaryStride (e : Strd) : Int :=
  if e.layout = .row_major then
    adjustStride (e.strides.getD (e.shape.length - 2) 0) (e.shape.getD (e.shape.length - 1) 0)
  else adjustStride (e.strides.getD 1 0) (e.shape.getD 0 0)

/-- `leading_axis_n_iters` — misc/xsort.hpp:60-73. -/
def leadingIters (e : Strd) : Nat :=
  if e.layout = .row_major then (e.shape.take (e.shape.length - 1)).foldl (· * ·) 1
  else (e.shape.drop 1).foldl (· * ·) 1

/-- Loop of `call_over_leading_axis(ev, fct)`: `n` consecutive blocks of `s` elements — misc/xsort.hpp:83-88.
`f` works in place on a block. -/
def overBlocks {α : Type} (f : List α → List α) (s : Nat) : Nat → List α → List α
  | 0, d => d
  | n + 1, d => f (d.take s) ++ overBlocks f s n (d.drop s)

/-- `call_over_leading_axis(ev, fct)` — misc/xsort.hpp:75-89; a zero stride makes the range empty. -/
def overLeading {α : Type} (f : List α → List α) (b : Buf α) : Buf α :=
  let s := secondaryStride b.strd
  if s = 0 then b else ⟨b.shape, b.layout, overBlocks f s.toNat (leadingIters b.strd) b.data⟩

/-- `leading_axis` — misc/xsort.hpp:114-126. -/
def leadingAxis (e : Strd) : Res Nat :=
  if e.layout = .row_major then .ok ((((e.shape.length : Int) - 1) % 2 ^ 64).toNat)
  else if e.layout = .column_major then .ok 0
  else .throws

/-- `get_permutations` — misc/xsort.hpp:128-154: `find` gives the position of each axis. -/
def sortPerms (dim ax : Nat) (L : Layout) : List Nat × List Nat :=
  let p := (List.range dim).eraseIdx ax
  let perm := if L = .row_major then p ++ [ax] else ax :: p
  (perm, (List.range dim).map fun i => perm.idxOf i)

/-- `map_axis<R>(e, axis, lambda)` — misc/xsort.hpp:156-181; `L` is the layout of the container type `R`.  An
axis that is not below the dimension makes `permutation.erase` undefined, as does dimension 0, where
`strides()[dimension() - 2]` is read or the empty permutation erased. -/
def mapAxis {α : Type} [Inhabited α] (L : Layout) (v : Strd) (mem : Int → α) (axis : Int)
    (f : List α → List α) : Res (Buf α) :=
  if v.shape.length = 1 then
    let res := copyTo L v mem
    .ok ⟨res.shape, res.layout, f res.data⟩
  else
    (leadingAxis v).bind fun lead =>
      let ax := normalizeAxis v.shape.length axis
      if ax ≥ v.shape.length then .ub
      else if ax = lead then .ok (overLeading f (copyTo L v mem))
      else
        let (perm, rev) := sortPerms v.shape.length ax v.layout
        (transposePerm v (toInts perm)).bind fun t =>
          let res := overLeading f (copyTo L t mem)
          (transposePerm res.strd (toInts rev)).bind fun w => .ok (copyTo L w res.mem)

/-! ### Contracts of the standard algorithms -/

/-- Contract of `std::sort` comparing by `key`. -/
structure SortBy {α β : Type} [LinearOrder α] (key : β → α) (srt : List β → List β) : Prop where
  perm : ∀ l, (srt l).Perm l
  sorted : ∀ l, (srt l).Pairwise fun a b => key a ≤ key b

/-- Contract of `std::nth_element(begin, begin + k, end)` comparing by `key`. -/
structure NthBy {α β : Type} [LinearOrder α] (key : β → α) (nth : List β → Nat → List β) : Prop where
  perm : ∀ l k, (nth l k).Perm l
  before : ∀ l k (i : Nat) a b, i < k → (nth l k)[i]? = some a → (nth l k)[k]? = some b → key a ≤ key b
  after : ∀ l k (j : Nat) a b, k < j → (nth l k)[k]? = some a → (nth l k)[j]? = some b → key a ≤ key b

/-- `std::stable_sort` comparing by `key`: equal keys keep their order. -/
def stableSort {α β : Type} [LinearOrder α] (key : β → α) (l : List β) : List β :=
  l.insertionSort fun a b => key a ≤ key b

/-! ### sort -/

/-- `sort(e, axis)` — misc/xsort.hpp:254-267. -/
def sortAxis {α : Type} [Inhabited α] (srt : List α → List α) (L : Layout) (v : Strd) (mem : Int → α)
    (axis : Int) : Res (Buf α) :=
  mapAxis L v mem axis srt

/-- `sort(e, xnone())` — misc/xsort.hpp:208-226: elements in row-major order, then `std::sort`. -/
def sortFlat {α : Type} (srt : List α → List α) (v : Strd) (mem : Int → α) : List α :=
  srt ((rowIndices v.shape).map (v.read mem))

/-! ### argsort -/

/-- Loop of `call_over_leading_axis(e1, e2, fct)`: blocks of the result and of the argument side by side —
misc/xsort.hpp:106-111.  `g` gives the block it writes; `pos` is the position in the storage of `e2`. -/
def overBlocks2 {α β : Type} (g : List α → List β → List β) (s1 s2 : Nat) (mem : Int → α) :
    Nat → Int → List β → List β
  | 0, _, d => d
  | n + 1, pos, d =>
    g ((List.range s2).map fun (t : Nat) => mem (pos + (t : Int))) (d.take s1) ++
      overBlocks2 g s1 s2 mem n (pos + (s2 : Int)) (d.drop s1)

/-- `call_over_leading_axis(e1, e2, fct)` — misc/xsort.hpp:91-112.  The storage of `e2` is read from `data()`,
that is from position 0.  The strides are those of expressions of nonnegative strides; the loop stops at the
first of the two ends. -/
def overLeading2 {α β : Type} (g : List α → List β → List β) (b : Buf β) (e : Strd) (mem : Int → α) : Buf β :=
  let s1 := secondaryStride b.strd
  let s2 := secondaryStride e
  if s1 = 0 ∨ s2 = 0 then b
  else ⟨b.shape, b.layout, overBlocks2 g s1.toNat s2.toNat mem (leadingIters b.strd) 0 b.data⟩

/-- `sorting_method` — misc/xsort.hpp:278-290. -/
inductive SortMethod
  | quick | stable
  deriving DecidableEq, Repr

/-- `argsort_iter` — misc/xsort.hpp:294-334: indices counted up, sorted by the values they point to; the `quick`
case falls through into the `stable` one.  `srt key` is `std::sort` comparing by `key`. -/
def argsortLine {α : Type} [LinearOrder α] [Inhabited α] (srt : (Nat → α) → List Nat → List Nat)
    (m : SortMethod) (l : List α) : List Nat :=
  let key := fun (i : Nat) => l.getD i default
  let idx := List.range l.length
  stableSort key (if m = .quick then srt key idx else idx)

/-- `result_type::from_shape(shape)`: indeterminate values, here 0. -/
def freshBuf (L : Layout) (sh : List Nat) : Buf Nat :=
  ⟨sh, L, List.replicate (sh.foldl (· * ·) 1) 0⟩

/-- `argsort(e, axis, method)` — misc/xsort.hpp:450-488, and argsort_iter's caller
`flatten_argsort_impl` 409-425 for one dimension. -/
def argsortAxis {α : Type} [LinearOrder α] [Inhabited α] (srt : (Nat → α) → List Nat → List Nat)
    (m : SortMethod) (L : Layout) (v : Strd) (mem : Int → α) (axis : Int) : Res (Buf Nat) :=
  if v.shape.length = 1 then
    .ok ⟨v.shape, L, argsortLine srt m ((rowIndices v.shape).map (v.read mem))⟩
  else
    let g := fun (l : List α) (_ : List Nat) => argsortLine srt m l
    (leadingAxis v).bind fun lead =>
      let ax := normalizeAxis v.shape.length axis
      if ax ≥ v.shape.length then .ub
      else if ax = lead then .ok (overLeading2 g (freshBuf L v.shape) v mem)
      else
        let (perm, rev) := sortPerms v.shape.length ax v.layout
        (transposePerm v (toInts perm)).bind fun t =>
          let ev := copyTo L t mem
          let res := overLeading2 g (freshBuf L ev.shape) ev.strd ev.mem
          (transposePerm res.strd (toInts rev)).bind fun w => .ok (copyTo L w res.mem)

/-! ### partition, median -/

/-- Loop of `partition_iter` over the positions in decreasing order — misc/xsort.hpp:504-519.  A position beyond
the current end is undefined. -/
def partitionLoop {β : Type} (nth : List β → Nat → List β) : List Nat → Nat → List β → Res (List β)
  | [], _, d => .ok d
  | k :: ks, last, d =>
    if k > last then .ub else partitionLoop nth ks k (nth (d.take last) k ++ d.drop last)

/-- `partition_iter(data.begin(), data.end(), kth.rbegin(), kth.rend())` with `kth` sorted first —
misc/xsort.hpp:504-534, 570-574, 600-609. -/
def partitionList {β : Type} (nth : List β → Nat → List β) (kth : List Nat) (d : List β) : Res (List β) :=
  partitionLoop nth (kth.insertionSort (· ≤ ·)).reverse d.length d

/-- `partition(e, kth, axis)` — misc/xsort.hpp:595-610.  Simplified: when a position is beyond the extent the
call is undefined, without saying which lines were changed. -/
def partitionAxis {α : Type} [Inhabited α] (nth : List α → Nat → List α) (L : Layout) (v : Strd)
    (mem : Int → α) (kth : List Nat) (axis : Int) : Res (Buf α) :=
  let n := v.shape.getD (if v.shape.length = 1 then 0 else normalizeAxis v.shape.length axis) 0
  if kth.any fun k => decide (k > n) then .ub
  else
    mapAxis L v mem axis fun l => match partitionList nth kth l with
      | .ok r => r
      | _ => l

/-- `argpartition(e, kth, xnone())` — misc/xsort.hpp:655-685: indices compared by `de[i]`, which is one index
given to an expression of any dimension. -/
def argpartitionFlat {α : Type} (nth : (Nat → α) → List Nat → Nat → List Nat) (v : Strd) (mem : Int → α)
    (kth : List Nat) : Res (List Nat) :=
  partitionList (nth fun (i : Nat) => mem (v.index [(i : Int)])) kth (List.range (v.shape.foldl (· * ·) 1))

/-- `median(e)` — misc/xsort.hpp:1087-1106 on the flattened values; `half` is division by `value_type(2)`.  An empty list makes `szh - 1` wrap around. -/
def medianFlat {α : Type} [Inhabited α] [Add α] (nth : List α → Nat → List α) (half : α → α) (l : List α) : Res α :=
  if l.length % 2 = 0 then
    if l.length = 0 then .ub
    else
      (partitionList nth [l.length / 2 - 1, l.length / 2] l).map fun r =>
        half (r.getD (l.length / 2 - 1) default + r.getD (l.length / 2) default)
  else
    (partitionList nth [(l.length - 1) / 2] l).map fun r => r.getD ((l.length - 1) / 2) default

/-- `median(e, axis)` — misc/xsort.hpp:1120-1144: the result at the index `p` without the axis.  `mean` of the
one or two middle elements. -/
def medianAxis (nth : List Rat → Nat → List Rat) (L : Layout) (v : Strd) (mem : Int → Rat) (axis : Int)
    (p : List Nat) : Res Rat :=
  let ax := normalizeAxis v.shape.length axis
  let n := v.shape.getD ax 0
  if n % 2 = 0 then
    if n = 0 then .ub
    else
      (partitionAxis nth L v mem [n / 2 - 1, n / 2] (ax : Int)).map fun r =>
        (r.read (p.insertIdx ax (n / 2 - 1)) + r.read (p.insertIdx ax (n / 2))) / 2
  else
    (partitionAxis nth L v mem [(n - 1) / 2] (ax : Int)).map fun r => r.read (p.insertIdx ax ((n - 1) / 2)) / 1

/-! ### argmin, argmax -/

/-- Loop of `arg_func_lambda` after the first element: `i` is the position of the next element, `val`, `idx`
the best so far — misc/xsort.hpp:1203-1210. -/
def argLoop {α : Type} (cmp : α → α → Bool) : List α → Nat → α → Nat → Nat
  | [], _, _, idx => idx
  | x :: xs, i, val, idx => if cmp x val then argLoop cmp xs (i + 1) x i else argLoop cmp xs (i + 1) val idx

/-- `arg_func_lambda` on one line — misc/xsort.hpp:1198-1213; the first element of an empty line is undefined, here 0. -/
def argLine {α : Type} (cmp : α → α → Bool) : List α → Nat
  | [] => 0
  | x :: xs => argLoop cmp xs 1 x 0

/-- The results of the lambda, line by line in storage order: `call_over_leading_axis(input, arg_func_lambda)` —
misc/xsort.hpp:83-88, 1211-1212. -/
def argBlocks {α : Type} (cmp : α → α → Bool) (s : Nat) : Nat → List α → List Nat
  | 0, _ => []
  | n + 1, d => argLine cmp (d.take s) :: argBlocks cmp s n (d.drop s)

/-- The same for a container: nothing is written when the stride is zero. -/
def argLines {α : Type} (cmp : α → α → Bool) (b : Buf α) : List Nat :=
  let s := secondaryStride b.strd
  if s = 0 then [] else argBlocks cmp s.toNat (leadingIters b.strd) b.data

/-- Rank of an index in the traversal order `L`. -/
def travRank (L : Layout) (sh q : List Nat) : Nat := if L = .row_major then rowRank sh q else colRank sh q

/-- `arg_func_impl<L>(e, axis, cmp)` with at least two dimensions — misc/xsort.hpp:1182-1234: the element of the
result at `q`; `none` if the iterator of the result never reached it.  `e` is a container (callers evaluate
first), so its layout is that of the temporaries. -/
def argFunc {α : Type} [Inhabited α] (cmp : α → α → Bool) (L : Layout) (e : Buf α) (axis : Int) (q : List Nat) :
    Res (Option Nat) :=
  let ax := normalizeAxis e.shape.length axis
  (leadingAxis e.strd).bind fun lead =>
    if ax ≥ e.shape.length then .ub
    else
      let alt := e.shape.eraseIdx ax
      if ax ≠ lead then
        (transposePerm e.strd (toInts (sortPerms e.shape.length ax e.layout).1)).map fun t =>
          (argLines cmp (copyTo e.layout t e.mem))[travRank L alt q]?
      else .ok (argLines cmp e)[travRank L alt q]?

/-- `argmin(e)`/`argmax(e)` and the one-dimensional case: `std::min_element` (`std::max_element` returns the
first largest) over the elements in the order `L` — misc/xsort.hpp:1167-1182, 1237-1246, 1267-1276. -/
def argFlat {α : Type} [Inhabited α] (cmp : α → α → Bool) (L : Layout) (e : Buf α) : Nat :=
  argLine cmp ((storageIndices L e.shape).map e.read)

/-! ### unique, setdiff1d -/

/-- `std::unique`: keeps the first of each run of equal elements. -/
def dropRuns {α : Type} [DecidableEq α] : List α → List α
  | [] => []
  | a :: l =>
    match dropRuns l with
    | [] => [a]
    | b :: r => if a = b then a :: r else a :: b :: r

/-- `unique(e)` — misc/xsort.hpp:1305-1316 on the flattened values. -/
def unique {α : Type} [DecidableEq α] (srt : List α → List α) (l : List α) : List α := dropRuns (srt l)

/-- `std::set_difference` on two sorted ranges, as many steps as the ranges have elements. -/
def setDifference {α : Type} [LinearOrder α] : Nat → List α → List α → List α
  | 0, _, _ => []
  | _ + 1, [], _ => []
  | _ + 1, a, [] => a
  | n + 1, x :: xs, y :: ys =>
    if x < y then x :: setDifference n xs (y :: ys)
    else if y < x then setDifference n (x :: xs) ys
    else setDifference n xs ys

/-- `setdiff1d(ar1, ar2)` — misc/xsort.hpp:1326-1345. -/
def setdiff1d {α : Type} [LinearOrder α] (srt : List α → List α) (a b : List α) : List α :=
  let u := unique srt a
  let w := unique srt b
  setDifference (u.length + w.length + 1) u w

end Xt
