import Verif.Model.ReduceImmediate
import Verif.Model.Sort
import Verif.Model.Broadcast
import Mathlib.Algebra.Order.Ring.Rat
/-!
# Model of the statistics in core/xmath.hpp: `mean`, `average`, `variance`, their `nan` versions, `amin`, `amax`, `minmax`

Numbers are rationals: rounding and overflow are not modelled.  An operand is an expression `e` together with the result `sh`
of its `shape()`.
-/

namespace Xt

open Spec (toInts)

variable {α β : Type}

/-- An expression known by its shape and its elements. -/
structure LazyEx (α : Type) where
  shape : List Nat
  elem : List Nat → α

/-- Number of elements. -/
def LazyEx.size (x : LazyEx α) : Nat := x.shape.foldl (· * ·) 1

/-- Functors of `sum` — core/xmath.hpp:367-383, 1838. -/
def sumFnsQ : RedFns ℚ ℚ := ⟨(· + ·), 0, (· + ·)⟩

/-- `reduce(f, e, axes)` evaluated lazily — reducers/xreducer.hpp:918-941, 985-996; `axes` is a sequence of signed numbers,
    normalised as in utils/xutils.hpp:384-407. -/
def lazyReduce (F : RedFns α β) (dflt : β) (e : Ex α) (sh : List Nat) (axes : List Int) (keep : Bool) : Res (LazyEx β) :=
  match Reducer.construct ⟨e, sh, F, axes.map (normalizeAxis sh.length), keep, none⟩ with
  | none => .throws
  | some r => .ok ⟨r.shape, r.element dflt⟩

/-- `reduce(f, e, axes, evaluation_strategy::immediate)` — reducers/xreducer.hpp:943-953: `e` is evaluated into a container of
    layout `L` and reduced into another; `junk` is what fresh memory holds. -/
def immediateReduce [Inhabited β] (F : RedFns α β) (L : Layout) (e : Ex α) (sh : List Nat) (axes : List Int) (copy : α → β)
    (junk : β) : Res (LazyEx β) :=
  let ax := axes.map (normalizeAxis sh.length)
  let shape := if ax.length = 0 then sh else immShape sh ax false
  (reduceImmediate L sh (e.values L sh) F ax false none copy (List.replicate (shape.foldl (· * ·) 1) junk)).map fun d =>
    ⟨shape, (Buf.mk shape L d).read⟩

/-- `mean_division`: what the sums are divided by — core/xmath.hpp:1862-1869; the quotient is one of integers. -/
def meanDivisor (ssize esize : Nat) : ℚ := if ssize ≠ 0 then ((esize / ssize : Nat) : ℚ) else 0

/-- Size from which the degrees of freedom are subtracted, an unsigned number — core/xmath.hpp:1884-1887. -/
def ddofSize (sh : List Nat) (ddof : Nat) : Nat := toSizeT ((sh.foldl (· * ·) 1 : Nat) - (ddof : Int))

/-- `detail::mean(e, axes, ddof, es)` — core/xmath.hpp:1871-1897, and with `ddof = 0` `mean(e, axes, es)` —
    core/xmath.hpp:1926-1947. -/
def meanAxes (e : Ex ℚ) (sh : List Nat) (axes : List Int) (keep : Bool) (ddof : Nat) : Res (LazyEx ℚ) :=
  (lazyReduce sumFnsQ 0 e sh axes keep).map fun s =>
    ⟨s.shape, fun i => s.elem i / meanDivisor s.size (ddofSize sh ddof)⟩

/-- `mean(e, axes, evaluation_strategy::immediate)` — core/xmath.hpp:1871-1897. -/
def meanImmediate (L : Layout) (e : Ex ℚ) (sh : List Nat) (axes : List Int) (junk : ℚ) : Res (LazyEx ℚ) :=
  (immediateReduce sumFnsQ L e sh axes id junk).map fun s =>
    ⟨s.shape, fun i => s.elem i / meanDivisor s.size (ddofSize sh 0)⟩

/-- All axes — reducers/xreducer.hpp:1016-1032. -/
def allAxes (sh : List Nat) : List Int := (List.range sh.length).map Int.ofNat

/-- `detail::mean_noaxis(e, ddof, es)` — core/xmath.hpp:1899-1908, and with `ddof = 0` `mean(e, es)` —
    core/xmath.hpp:1937-1941. -/
def meanAll (e : Ex ℚ) (sh : List Nat) (keep : Bool) (ddof : Nat) : Res (LazyEx ℚ) :=
  (lazyReduce sumFnsQ 0 e sh (allAxes sh) keep).map fun s => ⟨s.shape, fun i => s.elem i / (ddofSize sh ddof : ℚ)⟩

/-- Storage of `reshape_view<L>(m, shape)`: the elements of `m` in the order `L` — views/xstrided_view.hpp:857-884,
    views/xstrided_view_base.hpp:724-737. -/
def flatMem [Inhabited α] (L : Layout) (m : LazyEx α) : Int → α := fun k =>
  match unravelIndex k m.shape L with
  | none => default
  | some j => m.elem (j.map Int.toNat)

/-- `reshape_view<L>(m, shape)` as an operand. -/
def reshapedEx [Inhabited α] (L : Layout) (m : LazyEx α) (shape : List Nat) : Ex α :=
  .arr (StridedArr.mk' shape (computeStrides .dynamic L shape).1 0) (flatMem L m)

/-- `square(x - y)` on operands. -/
def sqDiff : List ℚ → ℚ
  | [x, y] => (x - y) * (x - y)
  | _ => 0

/-- `variance(e, axes, ddof, es)` with a sequence of axes — core/xmath.hpp:2111-2138.  A negative axis is accepted by `mean`,
    and is then an index outside `keep_dim_shape`. -/
def varianceSeq (L : Layout) (e : Ex ℚ) (sh : List Nat) (axes : List Int) (keep : Bool) (ddof : Nat) (junk : ℚ) :
    Res (LazyEx ℚ) :=
  (meanImmediate L e sh axes junk).bind fun m =>
    if axes.any (fun a => decide (a < 0)) then .ub
    else
      let shape := axes.foldl (fun s a => s.set a.toNat 1) sh
      meanAxes (.fn sqDiff (.cons e (.cons (reshapedEx .row_major m shape) .nil))) sh axes keep ddof

/-- `variance(e, {axes...}, ddof, es)`: the axes become unsigned — core/xmath.hpp:2193-2218. -/
def varianceBraced (L : Layout) (e : Ex ℚ) (sh : List Nat) (axes : List Int) (keep : Bool) (ddof : Nat) (junk : ℚ) :
    Res (LazyEx ℚ) :=
  varianceSeq L e sh (axes.map fun a => (toSizeT a : Int)) keep ddof junk

/-- `variance(e, ddof, es)` — core/xmath.hpp:2061-2071. -/
def varianceAll (e : Ex ℚ) (sh : List Nat) (keep : Bool) (ddof : Nat) : Res (LazyEx ℚ) :=
  (meanAll e sh keep 0).bind fun m =>
    meanAll (.fn sqDiff (.cons e (.cons (.scalar (m.elem [])) .nil))) sh keep ddof

/-- `x * y` on operands. -/
def mulOp : List ℚ → ℚ
  | [x, y] => x * y
  | _ => 0

/-- Index of an operand: axes aligned at the end, strides of unit extents 0 — core/xstrides.hpp:246-281, 500-519. -/
def operandIndex (sh idx : List Nat) : List Nat :=
  List.zipWith (fun n i => if n = 1 then 0 else i) sh (idx.drop (idx.length - sh.length))

/-- `a / b` — core/xoperation.hpp:303-315, core/xfunction.hpp:569-584: its shape is the broadcast of the shapes. -/
def divideEx (s t : LazyEx ℚ) : Res (LazyEx ℚ) :=
  match (ShExpr.fn [.leaf s.shape, .leaf t.shape]).shape with
  | none => .throws
  | some r => .ok ⟨r.1, fun i => s.elem (operandIndex s.shape i) / t.elem (operandIndex t.shape i)⟩

/-- `broadcast_shape` of `average` — core/xmath.hpp:1975-2003. -/
def weightShape (sh wsh ax : List Nat) : Res (List Nat) :=
  if wsh.length = 1 then
    match ax with
    | [] => .ub
    | a :: _ =>
      if sh.length ≤ a then .ub
      else if wsh.getD 0 0 ≠ sh.getD a 0 then .throws
      else .ok ((List.replicate sh.length 1).set a (wsh.getD 0 0))
  else if sh = wsh then .ok sh else .throws

/-- `average(e, weights, axes, ev)` — core/xmath.hpp:1966-2009.  `LW` is the layout of the weights, `L` that of temporaries. -/
def averageAxes (L LW : Layout) (e : Ex ℚ) (sh : List Nat) (w : LazyEx ℚ) (axes : List Int) (keep : Bool) (junk : ℚ) :
    Res (LazyEx ℚ) :=
  let ax := axes.map (normalizeAxis sh.length)
  (weightShape sh w.shape ax).bind fun bs =>
    (immediateReduce sumFnsQ L (reshapedEx LW w bs) bs axes id junk).bind fun scl =>
      (lazyReduce sumFnsQ 0 (.fn mulOp (.cons e (.cons (reshapedEx LW w bs) .nil))) sh axes keep).bind fun s => divideEx s scl

/-- `average(e, weights, ev)` — core/xmath.hpp:2028-2041. -/
def averageAll (L : Layout) (e : Ex ℚ) (sh : List Nat) (w : Ex ℚ) (wsh : List Nat) (keep : Bool) (junk : ℚ) :
    Res (LazyEx ℚ) :=
  if sh ≠ wsh then .throws
  else
    (immediateReduce sumFnsQ L w wsh (allAxes wsh) id junk).bind fun div =>
      (lazyReduce sumFnsQ 0 (.fn mulOp (.cons e (.cons w .nil))) sh (allAxes sh) keep).map fun s =>
        ⟨s.shape, fun i => s.elem i / div.elem []⟩

/-! ### Values that may be NaN, `none` -/

/-- Functors of `nansum` — core/xmath.hpp:2398-2405, 2494; the accumulator starts at 0 and is never NaN. -/
def nanSumFns : RedFns (Option ℚ) ℚ := ⟨fun l r => r.elim l (l + ·), 0, (· + ·)⟩

/-- Functors of `nanprod` — core/xmath.hpp:2407-2414, 2511. -/
def nanProdFns : RedFns (Option ℚ) ℚ := ⟨fun l r => r.elim l (l * ·), 1, (· * ·)⟩

/-- `nan_min` — core/xmath.hpp:2368-2381. -/
def nanMin : Option ℚ → Option ℚ → Option ℚ
  | none, r => r
  | l, none => l
  | some x, some y => some (if y < x then y else x)

/-- `nan_max` — core/xmath.hpp:2383-2396. -/
def nanMax : Option ℚ → Option ℚ → Option ℚ
  | none, r => r
  | l, none => l
  | some x, some y => some (if x < y then y else x)

/-- Functors of `nanmin` — core/xmath.hpp:2462. -/
def nanMinFns : RedFns (Option ℚ) (Option ℚ) := ⟨nanMin, none, nanMin⟩

/-- Functors of `nanmax` — core/xmath.hpp:2477. -/
def nanMaxFns : RedFns (Option ℚ) (Option ℚ) := ⟨nanMax, none, nanMax⟩

/-- Functors of `count_nonnan` — core/xmath.hpp:2513-2526, 2580-2610. -/
def nanCountFns : RedFns (Option ℚ) Nat := ⟨fun l r => if r.isSome then l + 1 else l, 0, (· + ·)⟩

/-- `nanmean(e, axes, es)` — core/xmath.hpp:2746-2760. -/
def nanMeanAxes (e : Ex (Option ℚ)) (sh : List Nat) (axes : List Int) (keep : Bool) : Res (LazyEx (Option ℚ)) :=
  (lazyReduce nanSumFns 0 e sh axes keep).bind fun s =>
    (lazyReduce nanCountFns 0 e sh axes keep).map fun c =>
      ⟨s.shape, fun i => if c.elem i = 0 then none else some (s.elem i / (c.elem i : ℚ))⟩

/-- `square(x - y)` on operands that may be NaN. -/
def nanSqDiff : List (Option ℚ) → Option ℚ
  | [some x, some y] => some ((x - y) * (x - y))
  | _ => none

/-- `nanvar(e, axes, es)` with a sequence of axes — core/xmath.hpp:2817-2843. -/
def nanVarSeq (e : Ex (Option ℚ)) (sh : List Nat) (axes : List Int) (keep : Bool) : Res (LazyEx (Option ℚ)) :=
  (nanMeanAxes e sh axes false).bind fun m =>
    if axes.any (fun a => decide (a < 0)) then .ub
    else
      let shape := axes.foldl (fun s a => s.set a.toNat 1) sh
      nanMeanAxes (.fn nanSqDiff (.cons e (.cons (reshapedEx .row_major m shape) .nil))) sh axes keep

/-! ### Extrema; `lo` and `hi` are `numeric_limits::lowest()` and `max()`, which are not the infinities -/

/-- Functors of `amin` — core/xmath.hpp:795-800: accumulators are at most `hi`. -/
def aminFns [LinearOrder α] (hi : α) : RedFns α {x : α // x ≤ hi} :=
  ⟨fun l r => ⟨min l.1 r, le_trans (min_le_left _ _) l.2⟩, ⟨hi, le_refl _⟩, fun l r => ⟨min l.1 r.1, le_trans (min_le_left _ _) l.2⟩⟩

/-- Functors of `amax` — core/xmath.hpp:777-782: accumulators are at least `lo`. -/
def amaxFns [LinearOrder α] (lo : α) : RedFns α {x : α // lo ≤ x} :=
  ⟨fun l r => ⟨max l.1 r, le_trans l.2 (le_max_left _ _)⟩, ⟨lo, le_refl _⟩, fun l r => ⟨max l.1 r.1, le_trans l.2 (le_max_left _ _)⟩⟩

/-- Functors of `minmax` — core/xmath.hpp:2231-2263. -/
def minmaxFns [LinearOrder α] (lo hi : α) : RedFns α ({x : α // x ≤ hi} × {x : α // lo ≤ x}) :=
  ⟨fun l r => ((aminFns hi).reduce l.1 r, (amaxFns lo).reduce l.2 r), ((aminFns hi).init, (amaxFns lo).init),
    fun l r => ((aminFns hi).merge l.1 r.1, (amaxFns lo).merge l.2 r.2)⟩

end Xt
