import Verif.Model.Expr
import Verif.Model.Strides
import Verif.Model.Layout
import Verif.Model.Broadcast
/-!
# Model of `core/xassign.hpp`: the assignment loops

Which address a loop stores to, and from which stepper state it computes the value, does not depend
on the data, so a loop is modelled by its trace: the list of its stores in order.  Each entry is a
batch: the values of a batch are all computed before the first of them is stored (one element for
scalar code, `simd_type::size` elements for packed code).  Value conversions (`conditional_cast`,
`static_cast`) are left out: source and destination have the same value type.
-/

namespace Xt

/-- Memory shared by the destination and the operands. -/
abbrev Mem (β : Type) := Int → β

/-- `*p = v`. -/
def Mem.set {β : Type} (m : Mem β) (p : Int) (v : β) : Mem β := fun q => if q = p then v else m q

/-- Expressions whose operands read the memory current at the time of evaluation. -/
abbrev MEx (β : Type) := Ex (Mem β → β)

/-- A strided operand in memory. -/
def rdArr {β : Type} (c : StridedArr) : MEx β := .arr c fun p m => m p

/-- An `xfunction` with a functor on values. -/
def pwFn {β : Type} (f : List β → β) (args : Args (Mem β → β)) : MEx β :=
  .fn (fun vs m => f (vs.map (· m))) args

/-- A store: address and value as a function of the current memory. -/
abbrev Write (β : Type) := Int × (Mem β → β)

/-- Loads of a batch, then its stores. -/
def runBatch {β : Type} (b : List (Write β)) (m : Mem β) : Mem β :=
  (b.map fun w => (w.1, w.2 m)).foldl (fun (m : Mem β) w => m.set w.1 w.2) m

/-- Execution of a trace. -/
def runTrace {β : Type} (bs : List (List (Write β))) (m : Mem β) : Mem β :=
  bs.foldl (fun m b => runBatch b m) m

variable {β : Type}

/-- `size()` of the destination. -/
def StridedArr.size (c : StridedArr) : Nat := c.shape.foldl (· * ·) 1

/-- A container of layout `l` with its storage at `off`: strides as set by `resize` —
containers/xcontainer.hpp:1000-1030, core/xstrides.hpp:528-563. -/
def StridedArr.container (l : Layout) (shape : List Nat) (off : Int) : StridedArr :=
  StridedArr.mk' shape (computeStrides l l shape).1 off

/-! ### `stepper_assigner` -/

/-- Loop of `stepper_assigner::run` — core/xassign.hpp:653-667; `st` are `m_lhs` and `m_rhs`, both
stepped by `step`/`reset`/`to_end` (669-697). -/
def stepperLoop (d : StridedArr) (e : MEx β) (L : Layout) :
    Nat → Int × e.State → List Nat → List (List (Write β))
  | 0, _, _ => []
  | n + 1, st, idx =>
    let r := incStepper (pairOps (xstepperOps d 0) (e.ops d.shape.length)) L d.shape st idx
    [(st.1, e.deref st.2)] :: stepperLoop d e L n r.1 r.2

/-- `stepper_assigner(e1, e2).run()` — core/xassign.hpp:643-667. -/
def stepperTrace (d : StridedArr) (e : MEx β) (L : Layout) : List (List (Write β)) :=
  stepperLoop d e L d.size (xstepperBegin d, e.stBegin) (List.replicate d.shape.length 0)

/-! ### `linear_assigner` -/

mutual
/-- `*(linear_begin(e) + i)` and `data_element(i)` — core/xassign.hpp:806-845,
containers/xcontainer.hpp:640-650, core/xfunction.hpp:795-800, containers/xscalar.hpp:655-660,
views/xbroadcast.hpp:98-115.  Generators have no such member (`has_linear_assign` is false). -/
def Ex.dataElement {α : Type} : Ex α → Nat → α
  | .arr c mem, i => mem (c.off + i)
  | .scalar v, _ => v
  | .gen _ g, _ => g []
  | .fn f args, i => f (args.dataElements i)
  | .bcast e _, i => e.dataElement i
/-- Operands of a function. -/
def Args.dataElements {α : Type} : Args α → Nat → List α
  | .nil, _ => []
  | .cons e es, i => e.dataElement i :: es.dataElements i
end

/-- `linear_assigner<false>::run_impl` — core/xassign.hpp:806-845. -/
def linearTrace (d : StridedArr) (e : MEx β) : List (List (Write β)) :=
  (List.range d.size).map fun (i : Nat) => [(d.off + i, e.dataElement i)]

/-- `align_begin + ((size - align_begin) & ~(simd_size - 1))` in `std::size_t` —
core/xassign.hpp:719-720. -/
def alignEnd (alignBegin size W : Nat) : Nat :=
  alignBegin + ((size - alignBegin) &&& (szMax - (W - 1)))

/-- Batches at `i, i + W, ...` while below `last` — core/xassign.hpp:747-750; the first argument
bounds the number of iterations. -/
def packedLoop (d : StridedArr) (e : MEx β) (W last : Nat) : Nat → Nat → List (List (Write β))
  | 0, _ => []
  | n + 1, i =>
    if i < last then
      ((List.range W).map fun (j : Nat) => (d.off + (i + j : Nat), e.dataElement (i + j))) ::
        packedLoop d e W last n (i + W)
    else []

/-- `linear_assigner<true>::run` — core/xassign.hpp:704-790: scalar head up to `alignBegin`
(`get_alignment_offset`, at most `size`; utils/xtensor_simd.hpp:181-185 returns `size`), packed body,
scalar tail. -/
def simdTrace (d : StridedArr) (e : MEx β) (W alignBegin : Nat) : List (List (Write β)) :=
  let scalar := fun (i : Nat) => [((d.off + i : Int), e.dataElement i)]
  let ae := alignEnd alignBegin d.size W
  (List.range alignBegin).map scalar ++
  packedLoop d e W ae d.size alignBegin ++
  (List.range (d.size - ae)).map fun (k : Nat) => scalar (ae + k)

/-! ### `strided_loop_assigner` -/

mutual
/-- Strided operands of an expression, left to right. -/
def Ex.arrs {α : Type} : Ex α → List StridedArr
  | .arr c _ => [c]
  | .scalar _ => []
  | .gen _ _ => []
  | .fn _ args => args.arrss
  | .bcast e _ => e.arrs
/-- Operands of a function. -/
def Args.arrss {α : Type} : Args α → List StridedArr
  | .nil => []
  | .cons e es => e.arrs ++ es.arrss
end

/-- Number of leading positions where the two lists agree. -/
def matchLen : List Int → List Int → Nat
  | a :: as, b :: bs => if a = b then matchLen as bs + 1 else 0
  | _, _ => 0

/-- `check_strides_overlap<row_major>::get` — core/xstrides.hpp:792-813. -/
def overlapRow (s1 s2 : List Int) : Nat := s1.length - matchLen s1.reverse s2.reverse

/-- `check_strides_overlap<column_major>::get` — core/xstrides.hpp:815-843. -/
def overlapCol (s1 s2 : List Int) : Nat := if s1.length ≠ s2.length then 0 else matchLen s1 s2

/-- `check_strides_functor<row_major>` over the operands — core/xassign.hpp:950-998. -/
def csfRow {α : Type} (strides : List Int) (e : Ex α) : Nat :=
  e.arrs.foldl (fun cut c => let var := overlapRow strides c.strides; if var > cut then var else cut) 0

/-- `check_strides_functor<column_major>` over the operands — core/xassign.hpp:950-998. -/
def csfCol {α : Type} (strides : List Int) (e : Ex α) : Nat :=
  e.arrs.foldl (fun cut c => let var := overlapCol strides c.strides; if var < cut then var else cut)
    strides.length

/-- `loop_sizes_t` — core/xassign.hpp:177-185. -/
structure LoopSizes where
  can : Bool
  isRow : Bool
  inner : Nat
  outer : Nat
  cut : Nat
deriving Repr, DecidableEq

/-- `get_loop_sizes(e1, e2)` — core/xassign.hpp:1006-1079. -/
def getLoopSizes {α : Type} (d : StridedArr) (e : Ex α) : LoopSizes :=
  let row := d.strides.reverse.find? (· ≠ 0) = some 1
  let col := d.strides.find? (· ≠ 0) = some 1
  if row then
    let cut := max (csfRow d.strides e) (d.strides.length - 1)
    let outer := (d.shape.take cut).foldl (· * ·) 1
    let inner := (d.shape.drop cut).foldl (· * ·) 1
    { can := decide (inner > 1), isRow := true, inner, outer, cut }
  else if col then
    let cut := min (csfCol d.strides e) 1
    let inner := (d.shape.take cut).foldl (· * ·) 1
    let outer := (d.shape.drop cut).foldl (· * ·) 1
    { can := decide (inner > 1), isRow := false, inner, outer, cut }
  else { can := false, isRow := true, inner := 1, outer := d.size, cut := d.shape.length }

/-- `idx_tools<column_major>::next_idx` — core/xassign.hpp:901-918. -/
def nextIdxCol : List Nat → List Nat → List Nat
  | i :: is, s :: ss => if i + 1 ≥ s then 0 :: nextIdxCol is ss else (i + 1) :: is
  | is, _ => is

/-- `idx_tools<row_major>::next_idx` — core/xassign.hpp:855-870: the same from the last axis. -/
def nextIdxRow (idx sh : List Nat) : List Nat := (nextIdxCol idx.reverse sh.reverse).reverse

/-- `idx_tools<row_major>::nth_idx` — core/xassign.hpp:872-893. -/
def nthIdxRow : Nat → List Nat → List Nat
  | _, [] => []
  | n, _ :: ss =>
    let stride := ss.foldl (· * ·) 1
    n / stride :: nthIdxRow (n - n / stride * stride) ss

/-- `idx_tools<column_major>::nth_idx` — core/xassign.hpp:920-945: strides are products of the
preceding extents and the last axis is computed first. -/
def nthIdxCol (n : Nat) (sh : List Nat) : List Nat := (nthIdxRow n sh.reverse).reverse

/-- Pointer increment — core/xiterator.hpp:564-588. -/
def ptrAdd (n : Nat) (p : Int) : Int := p + n

mutual
/-- `step_leading()` applied `n` times, also the advance made by `step_simd` —
core/xiterator.hpp:564-588 (pointer increment), containers/xscalar.hpp:1016-1030 (nothing),
core/xfunction.hpp:1166-1184 (every operand).  Generators and broadcasts have no such member
(`use_strided_loop`, core/xassign.hpp:299-325). -/
def Ex.lead {α : Type} (n : Nat) : (e : Ex α) → e.State → e.State
  | .arr _ _, p => ptrAdd n p
  | .scalar _, p => p
  | .gen _ _, p => p
  | .fn _ args, p => args.leads n p
  | .bcast e _, p => e.lead n p
/-- Operands of a function. -/
def Args.leads {α : Type} (n : Nat) : (es : Args α) → es.States → es.States
  | .nil, p => p
  | .cons e es, p => (e.lead n p.1, es.leads n p.2)
end

/-- `count` stores of `W` values each: `res_stepper.store_simd(fct_stepper.step_simd())`, or
`*res_stepper = *fct_stepper` with `step_leading` when `W = 1` — core/xassign.hpp:1290-1299. -/
def innerLoop (e : MEx β) (W : Nat) : Nat → Int → e.State → List (List (Write β))
  | 0, _, _ => []
  | k + 1, p, st =>
    ((List.range W).map fun (j : Nat) => ((p + j : Int), e.deref (e.lead j st))) ::
      innerLoop e W k (p + W) (e.lead W st)

/-- `for i: stepper.step(i + step_dim, idx[i])` — core/xassign.hpp:1311-1324. -/
def stepMany {σ : Type} (ops : StepOps σ) (stepDim : Nat) : Nat → List Nat → σ → σ
  | _, [], st => st
  | i, x :: xs, st => stepMany ops stepDim (i + 1) xs (ops.step st (i + stepDim) x)

/-- Outer loop of `strided_loop_assigner::run`, `n` iterations left — core/xassign.hpp:1288-1325.
`contig` is `E1::contiguous_layout`. -/
def stridedLoop (d : StridedArr) (e : MEx β) (contig : Bool) (ls : LoopSizes) (W : Nat) :
    Nat → List Nat → Int → e.State → List (List (Write β))
  | 0, _, _, _ => []
  | n + 1, idx, p, st =>
    let simdSize := ls.inner / W
    let simdRest := ls.inner % W
    let body := innerLoop e W simdSize p st ++
      innerLoop e 1 simdRest (p + (simdSize * W : Nat)) (e.lead (simdSize * W) st)
    let stepDim := if ls.isRow then 0 else ls.cut
    let idx' := if ls.isRow then nextIdxRow idx (d.shape.take ls.cut)
      else nextIdxCol idx (d.shape.drop ls.cut)
    let ops := e.ops d.shape.length
    let st' := stepMany ops stepDim 0 idx' (ops.toBegin (e.lead ls.inner st))
    let dops := xstepperOps d 0
    let p' := if contig then p + (ls.inner : Nat)
      else stepMany dops stepDim 0 idx' (dops.toBegin (p + (ls.inner : Nat)))
    body ++ stridedLoop d e contig ls W n idx' p' st'

/-- `strided_loop_assigner::run(e1, e2, loop_sizes)` — core/xassign.hpp:1092-1325, sequential
branch. -/
def stridedTrace (d : StridedArr) (e : MEx β) (contig : Bool) (ls : LoopSizes) (W : Nat) :
    List (List (Write β)) :=
  stridedLoop d e contig ls W ls.outer
    (List.replicate (if ls.isRow then ls.cut else d.shape.length - ls.cut) 0)
    (xstepperBegin d) e.stBegin

/-- One worker of the parallel branches, iterations `[first, first + n)` —
core/xassign.hpp:1143-1200 (OpenMP), 1207-1280 (TBB). -/
def workerTrace (d : StridedArr) (e : MEx β) (contig : Bool) (ls : LoopSizes) (W first n : Nat) :
    List (List (Write β)) :=
  let stepDim := if ls.isRow then 0 else ls.cut
  let idx := if ls.isRow then nthIdxRow first (d.shape.take ls.cut)
    else nthIdxCol first (d.shape.drop ls.cut)
  stridedLoop d e contig ls W n idx
    (stepMany (xstepperOps d 0) stepDim 0 idx (xstepperBegin d))
    (stepMany (e.ops d.shape.length) stepDim 0 idx e.stBegin)

/-! ### Dispatch -/

mutual
/-- `has_linear_assign(strides)` — containers/xcontainer.hpp:633-636, containers/xscalar.hpp:618-621,
generators/xgenerator.hpp:352-356, core/xfunction.hpp:742-749, views/xbroadcast.hpp:440-445. -/
def Ex.hasLinearAssign {α : Type} (strides : List Int) : Ex α → Bool
  | .arr c _ => c.strides == strides
  | .scalar _ => true
  | .gen _ _ => false
  | .fn _ args => args.haveLinearAssign strides
  | .bcast e s => (match e.exShape with
      | some es => es == s
      | none => false) && e.hasLinearAssign strides
/-- Operands of a function. -/
def Args.haveLinearAssign {α : Type} (strides : List Int) : Args α → Bool
  | .nil => true
  | .cons e es => e.hasLinearAssign strides && es.haveLinearAssign strides
/-- Tree of shapes, see `ShExpr`. -/
def Ex.toSh {α : Type} : Ex α → ShExpr
  | .arr c _ => .leaf c.shape
  | .scalar _ => .scalar
  | .gen s _ => .leaf s
  | .fn _ args => .fn args.toShs
  | .bcast _ s => .leaf s
/-- Operands of a function. -/
def Args.toShs {α : Type} : Args α → List ShExpr
  | .nil => []
  | .cons e es => e.toSh :: es.toShs
/-- `shape()` — core/xfunction.hpp:590-600 for functions. -/
def Ex.exShape {α : Type} : Ex α → Option (List Nat)
  | .arr c _ => some c.shape
  | .scalar _ => some []
  | .gen s _ => some s
  | .fn _ args => (ShExpr.fn args.toShs).shape.map Prod.fst
  | .bcast _ s => some s
end

/-- `resize(e1, e2)` — core/xassign.hpp:571-610: the shape the destination is given and the returned
flag; `none` when the operands cannot be broadcast.  (The branch for fixed-shape functions, which computes
it at compile time, is in Model/Fixed.) -/
def resizeInfo {α : Type} : Ex α → Option (List Nat × Bool)
  | .fn _ args => (ShExpr.fn args.toShs).shape
  | e => e.exShape.map fun s => (s, true)

/-- What is known at compile time or asked of the destination: `E1::contiguous_layout`,
`E2::contiguous_layout`, `linear_static_layout<E1, E2>()`, `e1.is_contiguous()`, whether the packed
flat loop is used, whether `simd_strided_assign` holds, the assignable layout of `E1` and
`simd_type::size`. -/
structure Traits where
  contig1 : Bool
  contig2 : Bool
  linStatic : Bool
  isContig1 : Bool
  simdLinear : Bool
  simdStrided : Bool
  layout : Layout
  width : Nat

/-- `traits::linear_assign(e1, e2, trivial)` — core/xassign.hpp:262-269, 391-396. -/
def linearAssign {α : Type} (t : Traits) (d : StridedArr) (e : Ex α) (trivial : Bool) : Bool :=
  trivial && ((t.contig1 && t.contig2 && t.linStatic) ||
    (t.isContig1 && e.hasLinearAssign d.strides))

/-- `assign_data(e1, e2, trivial)` — core/xassign.hpp:440-478, with
`strided_loop_assigner<true>::run` — 1330-1344. -/
def assignTrace (t : Traits) (alignBegin : Nat) (d : StridedArr) (e : MEx β) (trivial : Bool) :
    List (List (Write β)) :=
  if linearAssign t d e trivial then
    if t.simdLinear then simdTrace d e t.width alignBegin else linearTrace d e
  else
    let ls := getLoopSizes d e
    if t.simdStrided && ls.can then stridedTrace d e t.contig1 ls t.width
    else stepperTrace d e (Layout.defaultAssignable .row_major t.layout)

end Xt
