import Verif.Model.View
import Verif.Model.Strides
/-!
# Model of `core/xiterator.hpp`: steppers, `stepper_tools`, `xiterator`

A stepper is a state together with the operations `stepper_tools` performs on it.  Step counts are
`size_type` in the code and may encode negative moves (they are converted to signed before use), so
they are integers here.  Pointer arithmetic is integer arithmetic on addresses relative to the
beginning of the storage; forming an out-of-range pointer is not treated as an error, only the
addresses read matter.
-/

namespace Xt

/-- Operations of a stepper with states in `σ`. -/
structure StepOps (σ : Type u) where
  step : σ → Nat → Int → σ
  stepBack : σ → Nat → Int → σ
  reset : σ → Nat → σ
  resetBack : σ → Nat → σ
  toBegin : σ → σ
  toEnd : σ → Layout → σ

/-- What `xstepper` uses of its container: `shape()`, `strides()`, `backstrides()` and the position
of `data_xbegin()` in the storage. -/
structure StridedArr where
  shape : List Nat
  strides : List Int
  back : List Int
  off : Int

/-- `compute_strides`/`adapt_strides` set the back-stride of an axis to `stride * (extent - 1)` —
core/xstrides.hpp:500-519. -/
def StridedArr.mk' (shape : List Nat) (strides : List Int) (off : Int) : StridedArr :=
  { shape, strides, off, back := List.zipWith (fun (n : Nat) (s : Int) => ((n : Int) - 1) * s) shape strides }

/-- `strided_data_end(c, begin, l, offset)` — core/xstrides.hpp:169-196. -/
def stridedDataEnd (c : StridedArr) (l : Layout) (offset : Nat) : Int :=
  if c.shape.length = 0 then c.off + 1
  else
    let b := (List.range c.shape.length).foldl
      (fun b i => b + c.strides.getD i 0 * ((c.shape.getD i 0 : Nat) - 1 : Int)) c.off
    if l = .row_major then b + c.strides.getLastD 0
    else if offset = 0 then b + c.strides.headD 0
    else b

/-- `xstepper` — core/xiterator.hpp:476-538; the state is the position `m_it`, `offset` is
`m_offset`. -/
def xstepperOps (c : StridedArr) (offset : Nat) : StepOps Int where
  step p dim n := if dim ≥ offset then p + n * c.strides.getD (dim - offset) 0 else p
  stepBack p dim n := if dim ≥ offset then p - n * c.strides.getD (dim - offset) 0 else p
  reset p dim := if dim ≥ offset then p - c.back.getD (dim - offset) 0 else p
  resetBack p dim := if dim ≥ offset then p + c.back.getD (dim - offset) 0 else p
  toBegin _ := c.off
  toEnd _ l := stridedDataEnd c l offset

/-- `stepper_begin(shape)` of a strided container: position and offset —
containers/xcontainer.hpp:694-700. -/
def xstepperBegin (c : StridedArr) : Int := c.off

/-- `stepper_end(shape, l)` — containers/xcontainer.hpp:702-708. -/
def xstepperEnd (c : StridedArr) (l : Layout) (offset : Nat) : Int := stridedDataEnd c l offset

/-- `xindexed_stepper` over an expression of shape `shape` — core/xiterator.hpp:961-1047; the state
is `m_index`.  Coordinates are `size_type`; a decrement below zero is kept as a negative integer. In
`to_end` with an empty shape the code writes outside the index; here nothing happens. -/
def xindexedOps (shape : List Nat) (offset : Nat) : StepOps (List Int) where
  step ix dim n := if dim ≥ offset then ix.set (dim - offset) (ix.getD (dim - offset) 0 + n) else ix
  stepBack ix dim n :=
    if dim ≥ offset then ix.set (dim - offset) (ix.getD (dim - offset) 0 - n) else ix
  reset ix dim := if dim ≥ offset then ix.set (dim - offset) 0 else ix
  resetBack ix dim := if dim ≥ offset then
      ix.set (dim - offset) ((shape.getD (dim - offset) 0 : Nat) - 1 : Int) else ix
  toBegin ix := ix.map fun _ => 0
  toEnd _ l :=
    let ix := shape.map fun (n : Nat) => (n : Int) - 1
    let d := if l = .row_major then shape.length - 1 else 0
    ix.set d (shape.getD d 0 : Nat)

/-- `xscalar_stepper` — containers/xscalar.hpp:985-1014: every operation does nothing. -/
def xscalarOps : StepOps Unit where
  step _ _ _ := ()
  stepBack _ _ _ := ()
  reset _ _ := ()
  resetBack _ _ := ()
  toBegin _ := ()
  toEnd _ _ := ()

/-- `xfunction_stepper` on two operands — core/xfunction.hpp:1066-1155: every operation is applied to
the stepper of every operand.  Functions of more operands nest. -/
def pairOps {σ : Type u} {τ : Type v} (a : StepOps σ) (b : StepOps τ) : StepOps (σ × τ) where
  step p d n := (a.step p.1 d n, b.step p.2 d n)
  stepBack p d n := (a.stepBack p.1 d n, b.stepBack p.2 d n)
  reset p d := (a.reset p.1 d, b.reset p.2 d)
  resetBack p d := (a.resetBack p.1 d, b.resetBack p.2 d)
  toBegin p := (a.toBegin p.1, b.toBegin p.2)
  toEnd p l := (a.toEnd p.1 l, b.toEnd p.2 l)

/-! ### `stepper_tools` -/

/-- Axes in the order the loops of `stepper_tools<L>` visit them: from the last axis down for
`row_major`, from the first axis up for `column_major` — core/xiterator.hpp:590-956. -/
def axisOrder (L : Layout) (n : Nat) : List Nat :=
  if L = .row_major then (List.range n).reverse else List.range n

/-- The leading axis of `stepper_tools<L>`: `size - 1`, resp. `0`. -/
def leadAxis (L : Layout) (n : Nat) : Nat := if L = .row_major then n - 1 else 0

/-- Index of the past-the-end position: `shape - 1` except on the leading axis, where it is the
extent — core/xiterator.hpp:614-630, 796-812 and 1095-1111. -/
def endIndex (L : Layout) (shape : List Nat) : List Nat :=
  (shape.map (· - 1)).set (leadAxis L shape.length) (shape.getD (leadAxis L shape.length) 0)

variable {σ : Type u}

/-- Loop of `increment_stepper(stepper, index, shape)` over the remaining axes —
core/xiterator.hpp:597-613 (row major), 779-795 (column major).  The test `index[i] != shape[i] - 1`
is written without subtraction.  The last component tells whether the loop ran to its end. -/
def incLoop (ops : StepOps σ) (shape : List Nat) : List Nat → σ → List Nat → σ × List Nat × Bool
  | [], st, idx => (st, idx, true)
  | a :: as, st, idx =>
    if idx.getD a 0 + 1 ≠ shape.getD a 0 then
      (ops.step st a 1, idx.set a (idx.getD a 0 + 1), false)
    else incLoop ops shape as (if as ≠ [] then ops.reset st a else st) (idx.set a 0)

/-- `increment_stepper(stepper, index, shape)` — core/xiterator.hpp:590-632, 772-814. -/
def incStepper (ops : StepOps σ) (L : Layout) (shape : List Nat) (st : σ) (idx : List Nat) :
    σ × List Nat :=
  let r := incLoop ops shape (axisOrder L idx.length) st idx
  if r.2.2 then (ops.toEnd r.1 L, endIndex L shape) else (r.1, r.2.1)

/-- Loop of `decrement_stepper(stepper, index, shape)` — core/xiterator.hpp:700-719, 884-902. -/
def decLoop (ops : StepOps σ) (shape : List Nat) : List Nat → σ → List Nat → σ × List Nat × Bool
  | [], st, idx => (st, idx, true)
  | a :: as, st, idx =>
    if idx.getD a 0 ≠ 0 then
      (ops.stepBack st a 1, idx.set a (idx.getD a 0 - 1), false)
    else decLoop ops shape as (if as ≠ [] then ops.resetBack st a else st)
      (idx.set a (shape.getD a 0 - 1))

/-- `decrement_stepper(stepper, index, shape)` — core/xiterator.hpp:695-724, 878-907. -/
def decStepper (ops : StepOps σ) (L : Layout) (shape : List Nat) (st : σ) (idx : List Nat) :
    σ × List Nat :=
  let r := decLoop ops shape (axisOrder L idx.length) st idx
  if r.2.2 then (ops.toBegin r.1, r.2.1) else (r.1, r.2.1)

/-- Loop of `increment_stepper(stepper, index, shape, n)` — core/xiterator.hpp:646-674 (row major),
828-857 (column major): `rem` are the axes still to visit before the loop ends or is restarted.
The first argument bounds the number of iterations. Result: state, index, remaining `n`. -/
def incNLoop (ops : StepOps σ) (shape order : List Nat) :
    Nat → List Nat → Nat → σ → List Nat → σ × List Nat × Nat
  | 0, _, n, st, idx => (st, idx, n)
  | _, [], n, st, idx => (st, idx, n)
  | fuel + 1, a :: as, n, st, idx =>
    if n = 0 then (st, idx, n) else
    let lead := order.head? = some a
    let inc := if lead then n else 1
    if idx.getD a 0 + inc < shape.getD a 0 then
      incNLoop ops shape order fuel (if ¬ lead ∨ order.length = 1 then order else as) (n - inc)
        (ops.step st a inc) (idx.set a (idx.getD a 0 + inc))
    else
      let off := shape.getD a 0 - idx.getD a 0 - 1
      let st := if lead then ops.step st a off else st
      incNLoop ops shape order fuel as (if lead then n - off else n)
        (if as ≠ [] then ops.reset st a else st) (idx.set a 0)

/-- `increment_stepper(stepper, index, shape, n)` — core/xiterator.hpp:634-693, 816-876.  The loop
runs at most `(n + 1) * (size + 1)` times. -/
def incStepperN (ops : StepOps σ) (L : Layout) (shape : List Nat) (n : Nat) (st : σ)
    (idx : List Nat) : σ × List Nat :=
  let order := axisOrder L idx.length
  let r := incNLoop ops shape order ((n + 1) * (order.length + 1)) order n st idx
  if r.2.2 ≠ 0 then (ops.toEnd r.1 L, endIndex L shape) else (r.1, r.2.1)

/-- Loop of `decrement_stepper(stepper, index, shape, n)` — core/xiterator.hpp:736-765 (row major),
921-950 (column major). -/
def decNLoop (ops : StepOps σ) (shape order : List Nat) :
    Nat → List Nat → Nat → σ → List Nat → σ × List Nat × Nat
  | 0, _, n, st, idx => (st, idx, n)
  | _, [], n, st, idx => (st, idx, n)
  | fuel + 1, a :: as, n, st, idx =>
    if n = 0 then (st, idx, n) else
    let lead := order.head? = some a
    let inc := if lead then n else 1
    if idx.getD a 0 ≥ inc then
      decNLoop ops shape order fuel (if ¬ lead ∨ order.length = 1 then order else as) (n - inc)
        (ops.stepBack st a inc) (idx.set a (idx.getD a 0 - inc))
    else
      let off := idx.getD a 0
      let st := if lead then ops.stepBack st a off else st
      decNLoop ops shape order fuel as (if lead then n - off else n)
        (if as ≠ [] then ops.resetBack st a else st) (idx.set a (shape.getD a 0 - 1))

/-- `decrement_stepper(stepper, index, shape, n)` — core/xiterator.hpp:725-770, 909-956. -/
def decStepperN (ops : StepOps σ) (L : Layout) (shape : List Nat) (n : Nat) (st : σ)
    (idx : List Nat) : σ × List Nat :=
  let order := axisOrder L idx.length
  let r := decNLoop ops shape order ((n + 1) * (order.length + 1)) order n st idx
  if r.2.2 ≠ 0 then (ops.toBegin r.1, r.2.1) else (r.1, r.2.1)

/-! ### `xiterator` -/

/-- `xiterator` — members at core/xiterator.hpp:330-335. -/
structure XIter (σ : Type u) where
  st : σ
  index : List Nat
  linear : Int

namespace XIter

/-- Constructor with `end_index = false` — core/xiterator.hpp:1084-1094. -/
def mkBegin (st : σ) (shape : List Nat) : XIter σ :=
  { st, index := List.replicate shape.length 0, linear := 0 }

/-- Constructor with `end_index = true` — core/xiterator.hpp:1084-1118. -/
def mkEnd (st : σ) (L : Layout) (shape : List Nat) : XIter σ :=
  { st, index := endIndex L shape, linear := (shape.foldl (· * ·) 1 : Nat) }

variable (ops : StepOps σ) (L : Layout) (shape : List Nat)

/-- `operator++` — core/xiterator.hpp:1120-1126. -/
def inc (it : XIter σ) : XIter σ :=
  let r := incStepper ops L shape it.st it.index
  { st := r.1, index := r.2, linear := it.linear + 1 }

/-- `operator--` — core/xiterator.hpp:1128-1134. -/
def dec (it : XIter σ) : XIter σ :=
  let r := decStepper ops L shape it.st it.index
  { st := r.1, index := r.2, linear := it.linear - 1 }

/-- `operator+=(n)` — core/xiterator.hpp:1136-1149. -/
def add (n : Int) (it : XIter σ) : XIter σ :=
  let r := if n ≥ 0 then incStepperN ops L shape n.toNat it.st it.index
    else decStepperN ops L shape (-n).toNat it.st it.index
  { st := r.1, index := r.2, linear := it.linear + n }

/-- `operator-=(n)` — core/xiterator.hpp:1151-1164. -/
def sub (n : Int) (it : XIter σ) : XIter σ :=
  let r := if n ≥ 0 then decStepperN ops L shape n.toNat it.st it.index
    else incStepperN ops L shape (-n).toNat it.st it.index
  { st := r.1, index := r.2, linear := it.linear - n }

/-- `operator-` — core/xiterator.hpp:1166-1170. -/
def diff (a b : XIter σ) : Int := a.linear - b.linear

/-- `equal` — core/xiterator.hpp:1184-1189. -/
def equal (a b : XIter σ) : Bool := a.linear == b.linear

/-- `less_than` — core/xiterator.hpp:1191-1196. -/
def lessThan (a b : XIter σ) : Bool := decide (a.linear < b.linear)

/-- The states dereferenced by `for (it = first; it != last; ++it) *it`, at most `fuel` of them. -/
def walk (last : XIter σ) : Nat → XIter σ → List σ
  | 0, _ => []
  | fuel + 1, it => if it.equal last then [] else it.st :: walk last fuel (inc ops L shape it)

/-- The states dereferenced by walking from `last` down to `first` with reverse iterators: each
dereference decrements a copy first. -/
def walkBack (first : XIter σ) : Nat → XIter σ → List σ
  | 0, _ => []
  | fuel + 1, it => if it.equal first then [] else
    (dec ops L shape it).st :: walkBack first fuel (dec ops L shape it)

end XIter

end Xt
