import Verif.Model.Semantic
import Verif.Model.StridedView
/-!
# Programs over containers: sequences of assignments

Statements `x = e`, `x op= e`, `noalias(x) = e`, `noalias(x) op= e`, `x op= scalar`, the same on
`strided_view(x, slices)`, and declarations `xarray<T, L> x = e`.  Every variable is an `xarray`
with a static layout; expressions are built when the statement is reached.  Storage comes from an
arbitrary allocator; which loops are packed is an arbitrary choice of the target.
-/

namespace Xt

mutual
/-- Expressions of a program: a variable, `strided_view(x, slices)`, a scalar, a generator, an
`xfunction`, `broadcast(e, shape)`. -/
inductive PEx (β : Type)
  | var (i : Nat)
  | slice (i : Nat) (us : List USlice)
  | lit (v : β)
  | gen (s : List Nat) (g : List Int → β)
  | fn (f : List β → β) (args : PArgs β)
  | bcast (e : PEx β) (s : List Nat)
/-- Operands of a function. -/
inductive PArgs (β : Type)
  | nil
  | cons (e : PEx β) (es : PArgs β)
end

/-- Statements.  `f` in compound assignments is the binary operator; in `scalarOp` it is the operator
with the scalar as second operand. -/
inductive PStmt (β : Type)
  | decl (l : Layout) (e : PEx β)
  | assign (i : Nat) (e : PEx β)
  | opAssign (i : Nat) (f : β → β → β) (e : PEx β)
  | noalias (i : Nat) (e : PEx β)
  | opNoalias (i : Nat) (f : β → β → β) (e : PEx β)
  | scalarOp (i : Nat) (f : β → β)
  | viewAssign (i : Nat) (us : List USlice) (e : PEx β)
  | viewOp (i : Nat) (us : List USlice) (f : β → β → β) (e : PEx β)
  | viewScalar (i : Nat) (us : List USlice) (f : β → β)
  | viewFill (i : Nat) (us : List USlice) (v : β)

/-- An `xarray`: static layout, and shape, strides, backstrides and address of the storage. -/
structure PVar where
  lay : Layout
  arr : StridedArr

/-- The variables in order of declaration, the memory, the number of statements reached so far. -/
structure PSt (β : Type) where
  vars : List PVar
  mem : Mem β
  clock : Nat

/-- What does not depend on the program: the allocator (address of a block of `n` elements, given the
time and the live blocks), whether values are processed in packs, the logarithm of the pack size and
the number of elements before the first aligned one. -/
structure PCfg where
  alloc : Nat → List (Int × Nat) → Nat → Int
  simd : Nat → Bool
  logw : Nat → Nat
  align : Nat → Nat

variable {β : Type}

/-- Live blocks: address and number of elements. -/
def PSt.live (st : PSt β) : List (Int × Nat) := st.vars.map fun v => (v.arr.off, v.arr.size)

/-- The view `strided_view(x, slices)` as steppers and assigners see it: shape, strides, backstrides
and `data_xbegin()` — views/xstrided_view.hpp:630-638. -/
def SView.arr (v : SView) : StridedArr := .mk' (v.shape.map Int.toNat) v.strides v.offset

/-- `strided_view(x, slices)` on a variable — views/xstrided_view.hpp:789-810. -/
def PVar.view (x : PVar) (us : List USlice) : Res SView :=
  stridedView x.arr.shape x.arr.strides x.arr.off x.lay us

mutual
/-- Building the expression: operands by reference, `broadcast(e, s)` checks its shape —
views/xbroadcast.hpp:289-316. -/
def PEx.build (vars : List PVar) : PEx β → Res (MEx β)
  | .var i => match vars[i]? with
    | some x => .ok (rdArr x.arr)
    | none => .ub
  | .slice i us => match vars[i]? with
    | some x => (x.view us).map fun v => rdArr v.arr
    | none => .ub
  | .lit v => .ok (.scalar fun _ => v)
  | .gen s g => .ok (.gen s fun i _ => g i)
  | .fn f args => (args.build vars).map fun es => pwFn f es
  | .bcast e s => (e.build vars).bind fun ex =>
    match ex.exShape with
    | none => .throws
    | some es => match broadcastShape es s with
      | none => .throws
      | some r => .ok (.bcast ex r.1)
/-- Operands of a function. -/
def PArgs.build (vars : List PVar) : PArgs β → Res (Args (Mem β → β))
  | .nil => .ok .nil
  | .cons e es => (e.build vars).bind fun ex => (es.build vars).map fun exs => .cons ex exs
end

mutual
/-- `static_layout` — containers/xcontainer.hpp:105, containers/xscalar.hpp:145,
generators/xgenerator.hpp:140, core/xfunction.hpp:256, views/xbroadcast.hpp:189; `dynamic` for
`strided_view` with slices — views/xstrided_view.hpp:789-810. -/
def PEx.slay (vars : List PVar) : PEx β → Layout
  | .var i => match vars[i]? with
    | some x => x.lay
    | none => .dynamic
  | .slice _ _ => .dynamic
  | .lit _ => .any
  | .gen _ _ => .dynamic
  | .fn _ args => Layout.computeLayout (args.slays vars)
  | .bcast _ _ => .dynamic
/-- Of the operands of a function. -/
def PArgs.slays (vars : List PVar) : PArgs β → List Layout
  | .nil => []
  | .cons e es => e.slay vars :: es.slays vars
end

mutual
/-- Whether the expression has a SIMD interface: `load_simd` of a strided view requires a static
layout — views/xstrided_view.hpp:257-258; generators have none; functions need all operands. -/
def PEx.simd : PEx β → Bool
  | .var _ => true
  | .slice _ _ => false
  | .lit _ => true
  | .gen _ _ => false
  | .fn _ args => args.simds
  | .bcast e _ => e.simd
/-- Of the operands of a function. -/
def PArgs.simds : PArgs β → Bool
  | .nil => true
  | .cons e es => e.simd && es.simds
end

mutual
/-- `detail::use_strided_loop` — core/xassign.hpp:302-327: strides and `step_leading`. -/
def PEx.stridedLoop : PEx β → Bool
  | .var _ => true
  | .slice _ _ => true
  | .lit _ => true
  | .gen _ _ => false
  | .fn _ args => args.stridedLoops
  | .bcast _ _ => false
/-- Of the operands of a function. -/
def PArgs.stridedLoops : PArgs β → Bool
  | .nil => true
  | .cons e es => e.stridedLoop && es.stridedLoops
end

/-- `is_contiguous()` of a container — containers/xcontainer.hpp:930-962: the innermost non-zero
stride is one. -/
def contContiguous (l : Layout) (strides : List Int) : Bool :=
  match (if l = .row_major then strides.reverse else strides).find? (· ≠ 0) with
  | none => true
  | some s => s == 1

/-- `xassign_traits<E1, E2>` for a container of layout `l` with strides `str` as destination —
core/xassign.hpp:250-280, 344-437.  `el` is the static layout of the expression.  The packed flat loop
also asks for equal layouts at run time when they are not known statically; since it has the effect of
the scalar loop, the model takes it whenever the types allow. -/
def PCfg.contTraits (cfg : PCfg) (t : Nat) (l : Layout) (str : List Int) (el : Layout)
    (simd strided : Bool) : Traits :=
  { contig1 := l != .dynamic
    contig2 := el != .dynamic
    linStatic := Layout.computeLayout [l, el] != .dynamic
    isContig1 := contContiguous l str
    simdLinear := cfg.simd t && simd
    simdStrided := cfg.simd t && simd && strided
    layout := l
    width := 2 ^ min (cfg.logw t) 64 }

/-- `xassign_traits<E1, E2>` for a strided view with slices as destination: its layout is dynamic, it
has no `store_simd`; `is_contiguous()` — views/xstrided_view_base.hpp:418-422. -/
def PCfg.viewTraits (cfg : PCfg) (t : Nat) (x : PVar) (v : SView) (el : Layout) : Traits :=
  { contig1 := false
    contig2 := el != .dynamic
    linStatic := Layout.computeLayout [.dynamic, el] != .dynamic
    isContig1 := v.layout != .dynamic && contContiguous x.lay x.arr.strides
    simdLinear := false
    simdStrided := false
    layout := .dynamic
    width := 2 ^ min (cfg.logw t) 64 }

/-- `resize(shape)` of a variable — containers/xcontainer.hpp:1000-1030 with
`uvector::resize_impl` (containers/xstorage.hpp:218-228): storage of another size is allocated, storage of
the same size is kept. -/
def PVar.resized (x : PVar) (sh : List Nat) (fresh : Int) : StridedArr :=
  .container x.lay sh (if sh.foldl (· * ·) 1 = x.arr.size then x.arr.off else fresh)

/-- A block for an array of the given shape. -/
def PCfg.newArr (cfg : PCfg) (st : PSt β) (l : Layout) (sh : List Nat) : StridedArr :=
  .container l sh (cfg.alloc st.clock st.live (sh.foldl (· * ·) 1))

/-- The storage of variable `i` and the memory after a statement. -/
def PSt.put (st : PSt β) (i : Nat) (x : PVar) (r : StridedArr × Mem β) : PSt β :=
  { vars := st.vars.set i { x with arr := r.1 }, mem := r.2, clock := st.clock + 1 }

/-- `x = e`, see `containerAssign`. -/
def PCfg.assignTo [Inhabited β] (cfg : PCfg) (st : PSt β) (i : Nat) (x : PVar) (ex : MEx β)
    (el : Layout) (simd strided : Bool) : Res (PSt β) :=
  match resizeInfo ex with
  | none => .throws
  | some r =>
    let tmp := cfg.newArr st x.lay r.1
    let d := x.resized r.1 tmp.off
    match containerAssign (cfg.contTraits st.clock x.lay d.strides el simd strided)
        (min (cfg.align st.clock) d.size) x.arr d tmp ex st.mem with
    | none => .throws
    | some q => .ok (st.put i x q)

/-- Copy assignment of an `xarray`, used when both sides have the same type: shape and strides are
copied, the storage is resized and copied element by element — containers/xarray.hpp:129,
containers/xstorage.hpp:319-338. -/
def PCfg.copyTo (cfg : PCfg) (st : PSt β) (i : Nat) (x : PVar) (j : Nat) (y : PVar) : PSt β :=
  if i = j then { st with clock := st.clock + 1 }
  else
    let d := x.resized y.arr.shape (cfg.newArr st x.lay y.arr.shape).off
    st.put i x (d, runTrace (linearTrace d (rdArr y.arr)) st.mem)

/-- The assignment to a strided view, see `viewAssign`. -/
def PCfg.viewTo (cfg : PCfg) (st : PSt β) (i : Nat) (x : PVar) (v : SView) (ex : MEx β)
    (el : Layout) (simd strided : Bool) : Res (PSt β) :=
  let tmp := cfg.newArr st x.lay v.arr.shape
  -- the right-hand side is wrapped in `broadcast` unless the shapes agree
  let same := ex.exShape == some v.arr.shape
  let el := if same then el else .dynamic
  match viewAssign (cfg.viewTraits st.clock x v el)
      (cfg.contTraits st.clock x.lay tmp.strides el simd (strided && same))
      (cfg.viewTraits st.clock x v x.lay)
      (min (cfg.align st.clock) v.arr.size) (min (cfg.align st.clock) v.arr.size)
      v.arr tmp ex st.mem with
  | none => .throws
  | some m => .ok { st with mem := m, clock := st.clock + 1 }

/-- One statement.  `throws`: the exception leaves variables and memory as they were.  The operators of `noalias(x)` call
`assign`, `plus_assign`, ..., or `scalar_computed_assign` — core/xnoalias.hpp:90-225; `= scalar` assigns an `xscalar`, 97-102. -/
def PCfg.step [Inhabited β] (cfg : PCfg) (st : PSt β) : PStmt β → Res (PSt β)
  | .decl l e => (e.build st.vars).bind fun ex => match resizeInfo ex with
    | none => .throws
    | some r =>
      let d := cfg.newArr st l r.1
      .ok { vars := st.vars ++ [⟨l, d⟩]
            mem := runTrace (assignTrace (cfg.contTraits st.clock l d.strides (e.slay st.vars) e.simd
              e.stridedLoop) (min (cfg.align st.clock) d.size) d ex r.2) st.mem
            clock := st.clock + 1 }
  | .assign i e => match st.vars[i]? with
    | none => .ub
    | some x =>
      let generic := (e.build st.vars).bind fun ex =>
        cfg.assignTo st i x ex (e.slay st.vars) e.simd e.stridedLoop
      match e with
      | .var j => match st.vars[j]? with
        | some y => if y.lay = x.lay then .ok (cfg.copyTo st i x j y) else generic
        | none => .ub
      | _ => generic
  | .opAssign i f e => match st.vars[i]? with
    | none => .ub
    | some x => (e.build st.vars).bind fun ex =>
      cfg.assignTo st i x (binEx f x.arr ex) (Layout.computeLayout [x.lay, e.slay st.vars]) e.simd
        e.stridedLoop
  | .noalias i e => match st.vars[i]? with
    | none => .ub
    | some x => (e.build st.vars).bind fun ex => match resizeInfo ex with
      | none => .throws
      | some r =>
        let d := x.resized r.1 (cfg.newArr st x.lay r.1).off
        .ok (st.put i x (d, runTrace (assignTrace (cfg.contTraits st.clock x.lay d.strides
          (e.slay st.vars) e.simd e.stridedLoop) (min (cfg.align st.clock) d.size) d ex r.2) st.mem))
  | .opNoalias i f e => match st.vars[i]? with
    | none => .ub
    | some x => (e.build st.vars).bind fun ex => match resizeInfo (binEx f x.arr ex) with
      | none => .throws
      | some r =>
        let tmp := cfg.newArr st x.lay r.1
        match computedAssign (cfg.contTraits st.clock x.lay tmp.strides
            (Layout.computeLayout [x.lay, e.slay st.vars]) e.simd e.stridedLoop)
            (min (cfg.align st.clock) tmp.size) x.arr tmp (binEx f x.arr ex) st.mem with
        | none => .throws
        | some q => .ok (st.put i x q)
  | .scalarOp i f => match st.vars[i]? with
    | none => .ub
    | some x => .ok { st with mem := runTrace (storageScalarTrace x.arr f) st.mem, clock := st.clock + 1 }
  | .viewAssign i us e => match st.vars[i]? with
    | none => .ub
    | some x => (e.build st.vars).bind fun ex => (x.view us).bind fun v =>
      cfg.viewTo st i x v ex (e.slay st.vars) e.simd e.stridedLoop
  | .viewOp i us f e => match st.vars[i]? with
    | none => .ub
    | some x => (e.build st.vars).bind fun ex => (x.view us).bind fun v =>
      cfg.viewTo st i x v (binEx f v.arr ex) .dynamic false e.stridedLoop
  | .viewScalar i us f => match st.vars[i]? with
    | none => .ub
    | some x => (x.view us).map fun v =>
      { st with mem := runTrace (viewScalarTrace false v.arr f) st.mem, clock := st.clock + 1 }
  | .viewFill i us c => match st.vars[i]? with
    | none => .ub
    | some x => (x.view us).map fun v =>
      { st with
        mem := runTrace (viewScalarTrace (v.layout != .dynamic) v.arr fun _ => c) st.mem
        clock := st.clock + 1 }

/-- A program, each statement in its own `try`/`catch`: the final state and, for each statement,
whether it completed; `none` is undefined behaviour. -/
def PCfg.run [Inhabited β] (cfg : PCfg) (st : PSt β) : List (PStmt β) → Option (PSt β × List Bool)
  | [] => some (st, [])
  | s :: p => match cfg.step st s with
    | .ok st' => (cfg.run st' p).map fun r => (r.1, true :: r.2)
    | .throws => (cfg.run { st with clock := st.clock + 1 } p).map fun r => (r.1, false :: r.2)
    | .ub => none

end Xt
