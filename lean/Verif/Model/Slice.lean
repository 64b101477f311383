import Verif.Model.Strides
/-!
# Model of `views/xslice.hpp`

`std::ptrdiff_t` values are unbounded `Int`.  A slice object bound to an axis (the result of
`get_slice_implementation`) is `Sl`; what the user writes is `USlice`.
-/

namespace Xt

/-- Slices as written by the user: an integer, `range(start, stop[, step])` with placeholders,
`all()`, `newaxis()`, `ellipsis()`, `keep(...)`, `drop(...)`. -/
inductive USlice
  | int (i : Int)
  | range (start stop step : Option Int)
  | all
  | newaxis
  | ellipsis
  | keep (idx : List Int)
  | drop (idx : List Int)
  deriving DecidableEq, Repr

/-- Slice objects bound to an axis.  `drop` carries `m_size` and the table `m_inc` in key order. -/
inductive Sl
  | int (i : Int)
  | range (start size : Int)
  | stepped (start size step : Int)
  | all (n : Int)
  | newaxis
  | keep (idx : List Int)
  | drop (size : Int) (inc : List (Int × Int))
  deriving DecidableEq, Repr

/-- `xrange(start, stop)` — views/xslice.hpp:1060-1064. -/
def mkRange (start stop : Int) : Sl := .range start (if stop > start then stop - start else 0)

/-- Size computed by the constructor of `xstepped_range` — views/xslice.hpp:1136-1143
(C++ division truncates; `bool` is added as 0 or 1).  `step = 0` divides by zero, see
`mkStepped`. -/
def steppedSize (start stop step : Int) : Int :=
  let n := stop - start
  n.tdiv step + (if (decide (n < 0) != decide (step > 0)) && decide (n.tmod step ≠ 0) then 1 else 0)

/-- Constructor of `xstepped_range` — views/xslice.hpp:1136-1143. -/
def mkStepped (start stop step : Int) : Res Sl :=
  if step = 0 then .ub else .ok (.stepped start (steppedSize start stop step) step)

/-- `xrange_adaptor::normalize` — views/xslice.hpp:658-663. -/
def rangeNormalize (val : Int) (n : Nat) : Int :=
  let v := if val ≥ 0 then val else val + n
  max 0 (min n v)

/-- `xrange_adaptor::get_stepped_range` — views/xslice.hpp:665-685. -/
def getSteppedRange (start stop step : Int) (n : Nat) : Res Sl :=
  let start := if start ≥ 0 then start else start + n
  let stop := if stop ≥ 0 then stop else stop + n
  if step > 0 then
    mkStepped (max 0 (min n start)) (max 0 (min n stop)) step
  else
    mkStepped (max (-1) (min ((n : Int) - 1) start)) (max (-1) (min ((n : Int) - 1) stop)) step

/-- `xrange_adaptor::get(size)`, the eight overloads — views/xslice.hpp:566-639. -/
def rangeGet (start stop step : Option Int) (n : Nat) : Res Sl :=
  match start, stop, step with
  | some a, some b, some s => getSteppedRange a b s n
  | none, some b, some s => getSteppedRange (if s > 0 then 0 else (n : Int) - 1) b s n
  | some a, none, some s => getSteppedRange a (if s > 0 then n else -((n : Int) + 1)) s n
  | some a, some b, none => .ok (mkRange (rangeNormalize a n) (rangeNormalize b n))
  | none, none, some s =>
    mkStepped (if s ≥ 0 then 0 else (n : Int) - 1) (if s ≥ 0 then n else -1) s
  | some a, none, none => .ok (mkRange (rangeNormalize a n) n)
  | none, some b, none => .ok (mkRange 0 (rangeNormalize b n))
  | none, none, none => .ok (.all n)

/-- Normalisation of listed indices in `xkeep_slice::normalize` / `xdrop_slice::normalize` —
views/xslice.hpp:1420-1429, 1576-1580. -/
def normIndex (n : Nat) (i : Int) : Int := if i < 0 then (n : Int) + i else i

/-- Number of elements of the list that continue the run of consecutive integers begun by `d`
— the `while` loop at views/xslice.hpp:1587-1590. -/
def runLen (d : Int) : List Int → Nat
  | [] => 0
  | x :: xs => if x = d + 1 then runLen x xs + 1 else 0

/-- `m_inc[k] = v` on a `std::map` kept as a list in key order. -/
def mapSet (k v : Int) : List (Int × Int) → List (Int × Int)
  | [] => [(k, v)]
  | (a, b) :: m => if k < a then (k, v) :: (a, b) :: m
    else if k = a then (k, v) :: m else (a, b) :: mapSet k v m

/-- The loop filling `m_inc` — views/xslice.hpp:1581-1594.  `cum = prev_cum` at the head of each
iteration; the first argument bounds the number of iterations (the number of indices suffices). -/
def dropLoop : Nat → Int → List (Int × Int) → List Int → List (Int × Int)
  | 0, _, inc, _ => inc
  | _, _, inc, [] => inc
  | fuel + 1, cum, inc, d :: rest =>
    dropLoop fuel (cum + (runLen d rest + 1)) (mapSet (d - cum) (cum + (runLen d rest + 1)) inc)
      (rest.drop (runLen d rest))

/-- `xdrop_slice::normalize(shape)` on an object whose table is currently `inc` (the table is not
cleared) — views/xslice.hpp:1571-1595.  `shape - m_raw_indices.size()` is unsigned, then converted
to signed: integer subtraction. -/
def dropNormalize (inc : List (Int × Int)) (raw : List Int) (n : Nat) : Sl :=
  .drop ((n : Int) - raw.length) (dropLoop raw.length 0 inc (raw.map (normIndex n)))

/-- Last entry of the table whose key is at most `i` (`--m_inc.upper_bound(i)`). -/
def incLookup (i : Int) : List (Int × Int) → Option Int
  | [] => none
  | (k, v) :: m => if i < k then none else some ((incLookup i m).getD v)

/-- `get_slice_implementation(e, slice, index)` where axis `index` of `e` has extent `n` —
views/xslice.hpp:914-1003.  `drop` objects are taken freshly constructed (empty table). -/
def getSlice (n : Nat) : USlice → Res Sl
  | .int i => .ok (.int (if i < 0 then i + n else i))
  | .range a b s => rangeGet a b s n
  | .all => .ok (.all n)
  | .newaxis => .ok .newaxis
  | .ellipsis => .throws
  | .keep l => .ok (.keep (l.map (normIndex n)))
  | .drop l => .ok (dropNormalize [] l n)

namespace Sl

/-- `get_size(slice)` — views/xslice.hpp:851-861 and the `size()` members. -/
def size : Sl → Int
  | .int _ => 1
  | .range _ n => n
  | .stepped _ n _ => n
  | .all n => n
  | .newaxis => 1
  | .keep l => l.length
  | .drop n _ => n

/-- `value(slice, i)` — views/xslice.hpp:896-907 and the `operator()` members: `xrange`
1084-1087, `xstepped_range` 1164-1167, `xall` 1236-1239, `xnewaxis` 1302-1305, `xkeep_slice`
1432-1435, `xdrop_slice` 1599-1610.  An index outside `keep`'s list is undefined in C++, 0 here. -/
def value : Sl → Int → Int
  | .int s, _ => s
  | .range start _, i => start + i
  | .stepped start _ step, i => start + i * step
  | .all _, i => i
  | .newaxis, _ => 0
  | .keep l, i => if l.length = 1 then l.headD 0 else l.getD i.toNat 0
  | .drop _ inc, i => match inc with
    | [] => i
    | (k, _) :: _ => if i < k then i else i + (incLookup i inc).getD 0

/-- `step_size(slice, i, n)` — views/xslice.hpp:872-892 and the members: `xrange` 1102-1105,
`xstepped_range` 1182-1185, `xall` 1254-1257, `xnewaxis` 1320-1323, `xkeep_slice` 1444-1458,
`xdrop_slice` 1619-1629. -/
def stepSize : Sl → Nat → Nat → Int
  | .int _, _, _ => 0
  | .range _ _, _, n => n
  | .stepped _ _ step, _, n => step * n
  | .all _, _, n => n
  | .newaxis, _, _ => 0
  | .keep l, i, n => if l.length = 1 then 0
    else if i + n ≥ l.length then l.getLastD 0 - l.getD i 0 + 1
    else l.getD (i + n) 0 - l.getD i 0
  | s@(.drop sz _), i, n => if (i + n : Nat) ≥ sz.toNat then s.value (sz - 1) - s.value i + 1
    else s.value ((i + n : Nat) : Int) - s.value i

/-- `contains(i)` — views/xslice.hpp: `xrange` 1114-1117, `xstepped_range` 1194-1197, `xall`
1266-1269, `xnewaxis` 1332-1335, `xkeep_slice` 1475-1478; `xdrop_slice` is not modelled (it does not
look at the table). -/
def contains : Sl → Int → Bool
  | .int s, i => i == s
  | .range start n, i => decide (i ≥ start) && decide (i < start + n)
  | .stepped start n step, i => decide (i ≥ start) && decide (i < start + n * step) &&
      decide ((i - start).tmod step = 0)
  | .all n, i => decide (i < n)
  | .newaxis, i => i == 0
  | .keep l, i => l.contains i
  | .drop _ _, _ => true

/-- The positions a slice addresses, in order (observable through a view on one axis). -/
def positions (s : Sl) : List Int := (List.range s.size.toNat).map fun (i : Nat) => s.value i

end Sl
end Xt
