import Verif.Model.Basic
import Verif.Model.Layout
/-!
# Model of `core/xstrides.hpp` (strides, offsets, ravel/unravel, bounds, periodicity)
and of the index checks of `utils/xexception.hpp`

Extents are `Nat`; strides, offsets and index arguments are `Int`.
-/

namespace Xt

/-! ## Sizes and strides -/

/-- `compute_size` for unsigned extents — core/xstrides.hpp:336-343, 346-353:
`accumulate(begin, end, 1, multiplies)`. -/
def computeSize (shape : List Nat) : Nat := shape.foldl (· * ·) 1

/-- `compute_size` for signed extents — core/xstrides.hpp:327-334: absolute value of the product. -/
def computeSizeSigned (shape : List Int) : Nat := (shape.foldl (· * ·) 1).natAbs

/-- `detail::adapt_strides` on one axis, stride component — core/xstrides.hpp:507-510, 522-525. -/
def adaptStride (s : Nat) (st : Int) : Int := if s = 1 then 0 else st

/-- `detail::adapt_strides` on one axis, backstride component — core/xstrides.hpp:511:
`strides[i] * ptrdiff_t(shape[i] - 1)`.  For extent 0 the unsigned `shape[i] - 1` wraps and the
conversion to `ptrdiff_t` gives `-1`, i.e. integer subtraction. -/
def backstride (s : Nat) (st : Int) : Int := st * ((s : Int) - 1)

/-- Row-major loop of `detail::compute_strides` — core/xstrides.hpp:543-551.  The loop runs from
the last axis to the first with the running `data_size`; the recursion returns the strides of the
axes already visited and the current `data_size`. -/
def rowStrides : List Nat → List Int × Int
  | [] => ([], 1)
  | s :: ss =>
    let r := rowStrides ss
    (adaptStride s r.2 :: r.1, r.2 * (s : Int))

/-- Column-major loop of `detail::compute_strides` — core/xstrides.hpp:552-560, `ds` is the running
`data_size`. -/
def colStrides (ds : Int) : List Nat → List Int × Int
  | [] => ([], ds)
  | s :: ss =>
    let r := colStrides (ds * (s : Int)) ss
    (adaptStride s ds :: r.1, r.2)

/-- `detail::compute_strides<L>(shape, l, strides, bs)` — core/xstrides.hpp:528-563: strides
and returned size. `L` is the compile-time layout, `l` the run-time one. -/
def computeStrides (L l : Layout) (shape : List Nat) : List Int × Int :=
  if L = .row_major ∨ l = .row_major then rowStrides shape else colStrides 1 shape

/-- Backstrides written by `compute_strides`/`adapt_strides` — core/xstrides.hpp:511, 571-576. -/
def backstrides (shape : List Nat) (strides : List Int) : List Int :=
  List.zipWith backstride shape strides

/-- Public `adapt_strides(shape, strides)` — core/xstrides.hpp:622-629. -/
def adaptStrides (shape : List Nat) (strides : List Int) : List Int :=
  List.zipWith adaptStride shape strides

/-- `detail::compute_stride_impl` — core/xstrides.hpp:204-226: the stride a unit axis would have. -/
def computeStrideImpl (l : Layout) (shape : List Nat) (axis : Nat) (dflt : Int) : Int :=
  if l = .row_major then (shape.drop (axis + 1)).foldl (fun (a : Int) (s : Nat) => a * (s : Int)) 1
  else if l = .column_major then (shape.take axis).foldl (fun (a : Int) (s : Nat) => a * (s : Int)) 1
  else dflt

/-- `stride_type` — core/xstrides.hpp:233-238. -/
inductive StrideType
  | internal | normal | bytes
  deriving DecidableEq, Repr

/-- `strides(e, type)` — core/xstrides.hpp:247-281.  `sz` is `sizeof(value_type)`. -/
def userStrides (l : Layout) (shape : List Nat) (strides : List Int) (sz : Int)
    (t : StrideType) : List Int :=
  if t = .internal then strides
  else
    let r := strides.mapIdx fun i st =>
      if shape[i]? = some 1 then computeStrideImpl l shape i st else st
    if t = .bytes then r.map (· * sz) else r

/-- `strides(e, axis, type)` — core/xstrides.hpp:291-319. -/
def userStride (l : Layout) (shape : List Nat) (strides : List Int) (sz : Int) (axis : Nat)
    (t : StrideType) : Int :=
  let ret := strides[axis]?.getD 0
  if t = .internal then ret
  else
    let r := if ret = 0 then
        (if shape[axis]? = some 1 then computeStrideImpl l shape axis ret else ret)
      else ret
    if t = .bytes then r * sz else r

/-! ## Offsets -/

/-- `detail::raw_data_offset<0>` — core/xstrides.hpp:357-376.  More arguments than strides never
happens (guarded by the callers). -/
def rawDataOffset : List Int → List Int → Int
  | _, [] => 0
  | [], _ :: _ => 0
  | st :: sts, a :: as => a * st + rawDataOffset sts as

/-- `data_offset(strides, args...)` — core/xstrides.hpp:446-477.  `miss` says whether a trailing
`xt::missing` follows `args`; it counts as an argument (`nargs = sizeof...(Args) + 1`). -/
def dataOffset (strides : List Int) (miss : Bool) : List Int → Int
  | [] => 0
  | a :: as =>
    let nargs := as.length + 1 + (if miss then 1 else 0)
    if nargs = strides.length then rawDataOffset strides (a :: as)
    else if strides.length < nargs then dataOffset strides miss as
    else if miss then rawDataOffset strides (a :: as)
    else rawDataOffset (strides.drop (strides.length - nargs)) (a :: as)

/-- `detail::layout_data_offset<L, static_dim>::run<dim>` — core/xstrides.hpp:378-443.
`sd = some n` when the stride container has static size `n`, `none` when dynamic (`-1`).
The first list holds the strides from axis `dim` on. -/
def layoutDataOffset (L : Layout) (sd : Option Nat) : Nat → List Int → List Int → Int
  | _, _, [] => 0
  | _, [], _ :: _ => 0
  | dim, st :: sts, a :: as =>
    match L with
    | .row_major =>
      if as = [] then (if sd = some (dim + 1) then a else a * st)
      else a * st + layoutDataOffset L sd (dim + 1) sts as
    | .column_major =>
      (if dim = 0 then a else a * st) + layoutDataOffset L sd (dim + 1) sts as
    | _ => a * st + layoutDataOffset L sd (dim + 1) sts as

/-- `unchecked_data_offset<L>` — core/xstrides.hpp:479-485. -/
def uncheckedDataOffset (L : Layout) (sd : Option Nat) (strides args : List Int) : Int :=
  layoutDataOffset L sd 0 strides args

/-- `std::inner_product(first1, last1, first2, 0)` over the shorter range. -/
def innerProduct : List Int → List Int → Int → Int
  | a :: as, b :: bs, acc => innerProduct as bs (acc + a * b)
  | _, _, acc => acc

/-- `element_offset(strides, first, last)` — core/xstrides.hpp:487-495. -/
def elementOffset (strides idx : List Int) : Int :=
  let size := min idx.length strides.length
  innerProduct (idx.drop (idx.length - size)) (strides.drop (strides.length - size)) 0

/-! ## Contiguity test -/

/-- `stride_match_condition` — core/xstrides.hpp:578-583. -/
def strideMatch (st : Int) (s : Nat) (ds : Int) (zero : Bool) : Bool :=
  (s == 1 && st == 0 && zero) || st == ds

/-- Row-major loop of `do_strides_match` — core/xstrides.hpp:592-602; `none` = returned false,
`some data_size` otherwise. -/
def stridesMatchRow (zero : Bool) : List Nat → List Int → Option Int
  | s :: ss, st :: sts =>
    match stridesMatchRow zero ss sts with
    | none => none
    | some ds => if strideMatch st s ds zero then some (ds * (s : Int)) else none
  | _, _ => some 1

/-- Column-major loop of `do_strides_match` — core/xstrides.hpp:603-614. -/
def stridesMatchCol (zero : Bool) (ds : Int) : List Nat → List Int → Bool
  | s :: ss, st :: sts => strideMatch st s ds zero && stridesMatchCol zero (ds * (s : Int)) ss sts
  | _, _ => true

/-- `do_strides_match(shape, strides, l, zero_strides)` — core/xstrides.hpp:586-620. -/
def doStridesMatch (shape : List Nat) (strides : List Int) (l : Layout) (zero : Bool) : Bool :=
  match l with
  | .row_major => (stridesMatchRow zero shape strides).isSome
  | .column_major => stridesMatchCol zero 1 shape strides
  | _ => false

/-! ## ravel / unravel -/

/-- One step of `detail::unravel_noexcept` — core/xstrides.hpp:653-656: quotient and new `idx`
(C++ truncating division; skipped for a zero stride). -/
def unravelStep (idx str : Int) : Int × Int :=
  (if str ≠ 0 then idx.tdiv str else 0, if str ≠ 0 then idx.tmod str else idx)

/-- Row-major loop of `unravel_noexcept` — core/xstrides.hpp:649-658. -/
def unravelRow : Int → List Int → List Int
  | _, [] => []
  | idx, st :: sts => let q := unravelStep idx st; q.1 :: unravelRow q.2 sts

/-- Column-major loop of `unravel_noexcept` — core/xstrides.hpp:659-668: from the last axis to the
first; returns the result for the visited axes and the remaining `idx`. -/
def unravelColAux (idx : Int) : List Int → List Int × Int
  | [] => ([], idx)
  | st :: sts =>
    let r := unravelColAux idx sts
    let q := unravelStep r.2 st
    (q.1 :: r.1, q.2)

/-- `unravel_from_strides` — core/xstrides.hpp:673-681; `none` is the exception for a layout that is
neither row- nor column-major. -/
def unravelFromStrides (idx : Int) (strides : List Int) (l : Layout) : Option (List Int) :=
  match l with
  | .row_major => some (unravelRow idx strides)
  | .column_major => some (unravelColAux idx strides).1
  | _ => none

/-- `unravel_index(index, shape, l)` — core/xstrides.hpp:689-697; `compute_strides(shape, l, ...)`
is the overload with run-time layout only. -/
def unravelIndex (idx : Int) (shape : List Nat) (l : Layout) : Option (List Int) :=
  unravelFromStrides idx (computeStrides .dynamic l shape).1 l

/-- `unravel_indices(idx, shape, l)` — core/xstrides.hpp:699-714. -/
def unravelIndices (idx : List Int) (shape : List Nat) (l : Layout) : Option (List (List Int)) :=
  idx.mapM fun i => unravelFromStrides i (computeStrides .dynamic l shape).1 l

/-- `ravel_index(index, shape, l)` — core/xstrides.hpp:683-687, 716-723. -/
def ravelIndex (index : List Int) (shape : List Nat) (l : Layout) : Int :=
  elementOffset (computeStrides .dynamic l shape).1 index

/-! ## Bounds and periodicity -/

/-- Conversion of an integer argument to `std::size_t` (64 bits). -/
def toSizeT (a : Int) : Nat := (a % 18446744073709551616).toNat

/-- `detail::check_index_impl<S, dim>` — utils/xexception.hpp:182-204: true when no
exception is thrown. -/
def checkIndexImpl : List Nat → List Int → Bool
  | _, [] => true
  | [], _ :: _ => true
  | s :: ss, a :: as =>
    if toSizeT a ≥ s ∧ s ≠ 1 then false else checkIndexImpl ss as

/-- `check_index(shape, args...)` — utils/xexception.hpp:207-241. -/
def checkIndex (shape : List Nat) (miss : Bool) : List Int → Bool
  | [] => true
  | a :: as =>
    let nargs := as.length + 1 + (if miss then 1 else 0)
    if nargs = shape.length then checkIndexImpl shape (a :: as)
    else if shape.length < nargs then checkIndex shape miss as
    else if miss then checkIndexImpl shape (a :: as)
    else checkIndexImpl (shape.drop (shape.length - nargs)) (a :: as)

/-- `check_dimension` — utils/xexception.hpp:270-281. -/
def checkDimension (shape : List Nat) (nargs : Nat) : Bool := ¬ (shape.length < nargs)

/-- `check_access` = `check_dimension` then `check_index` — utils/xexception.hpp:305-310. -/
def checkAccess (shape : List Nat) (miss : Bool) (args : List Int) : Bool :=
  checkDimension shape (args.length + (if miss then 1 else 0)) && checkIndex shape miss args

/-- `at(args...)` — core/xaccessible.hpp:173-179: `none` when `check_access` throws, else the buffer
position `operator()` addresses (containers/xcontainer.hpp `operator()` → `data_offset`). -/
def atOffset (shape : List Nat) (strides : List Int) (miss : Bool) (args : List Int) : Option Int :=
  if checkAccess shape miss args then some (dataOffset strides miss args) else none

/-- `check_element_index(shape, first, last)` — utils/xexception.hpp:243-264: the last
`min(dim, n)` coordinates are compared with the *first* extents; signed comparison. -/
def checkElementIndex (shape : List Nat) (idx : List Int) : Bool :=
  let size := min shape.length idx.length
  (List.zipWith (fun (s : Nat) (i : Int) => !(decide (i ≥ (s : Int)) && s != 1)) shape
    (idx.drop (idx.length - size))).all id

/-- `detail::check_in_bounds_impl` — core/xstrides.hpp:847-871.  The first argument is the shape
(whose `size()` is compared with the number of remaining arguments), the second the extents from
axis `dim` on.  A trailing `missing` counts as an argument. -/
def checkInBoundsImpl (n : Nat) (miss : Bool) : List Nat → List Int → Bool
  | _, [] => true
  | exts, a :: as =>
    let nargs := as.length + 1 + (if miss then 1 else 0)
    if n < nargs then checkInBoundsImpl n miss exts as
    else
      match exts with
      | [] => true
      | s :: ss => decide (0 ≤ a) && decide (a < (s : Int)) && checkInBoundsImpl n miss ss as

/-- `in_bounds(args...)` — core/xstrides.hpp:874-878, core/xaccessible.hpp:246-251. -/
def inBoundsCall (shape : List Nat) (miss : Bool) (args : List Int) : Bool :=
  checkInBoundsImpl shape.length miss shape args

/-- One argument of `normalize_periodic_impl` — core/xstrides.hpp:901-902:
`arg = (n + (arg % n)) % n` with the C++ remainder. -/
def normalizeArg (n : Nat) (a : Int) : Int := ((n : Int) + a.tmod n).tmod n

/-- `normalize_periodic(shape, args...)` — core/xstrides.hpp:880-913.  `throws`: `check_dimension`
throws; `ub`: a remainder by a zero extent.  Extents are consumed from the first axis whatever the
number of arguments (the inner "too many arguments" branch is unreachable after
`check_dimension`). -/
def normalizePeriodic (shape : List Nat) (args : List Int) : Res (List Int) :=
  if shape.length < args.length then .throws
  else if 0 ∈ shape.take args.length then .ub
  else .ok (List.zipWith normalizeArg shape args)

/-- `periodic(args...)` — core/xaccessible.hpp:215-221: normalise, then `operator()`. -/
def periodicOffset (shape : List Nat) (strides : List Int) (args : List Int) : Res Int :=
  (normalizePeriodic shape args).map (dataOffset strides false)

end Xt
