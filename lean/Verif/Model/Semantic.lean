import Verif.Model.Assign
/-!
# Model of `core/xsemantic.hpp` and of the overlap test in `utils/xutils.hpp`

Addresses count elements of the common value type.  Fresh storage (temporaries, reallocation on
`resize`) is a parameter: the functions take the arrays that the allocations return.
-/

namespace Xt

variable {β : Type}

/-! ### Overlap test -/

/-- `*begin()` of the default (row major) traversal. -/
def StridedArr.firstAddr (c : StridedArr) : Int := (XIter.mkBegin (xstepperBegin c) c.shape).st

/-- `*rbegin()`: the end iterator decremented once. -/
def StridedArr.lastAddr (c : StridedArr) : Int :=
  ((XIter.mkEnd (xstepperEnd c .row_major 0) .row_major c.shape).dec (xstepperOps c 0) .row_major
    c.shape).st

/-- `memory_range(first, last)` — utils/xutils.hpp:829-842. -/
def memoryRange (first last : Int) : Int × Int :=
  (if last < first then last else first, if last < first then first else last)

/-- `memory_range::overlaps(first, last)` — utils/xutils.hpp:844-857. -/
def rangeOverlaps (r : Int × Int) (first last : Int) : Bool :=
  if first ≤ last then decide (first ≤ r.2) && decide (last ≥ r.1)
  else decide (last ≤ r.2) && decide (first ≥ r.1)

/-- `overlapping_memory_checker(dst)` — utils/xutils.hpp:917-938; `none` for the default
`memory_range()`. -/
def destRange (d : StridedArr) : Option (Int × Int) :=
  if d.size = 0 then none else some (memoryRange d.firstAddr d.lastAddr)

/-- `expr.size()` of an `xfunction` (nothing when the shapes conflict, where it throws). -/
def Args.fnSize {α : Type} (args : Args α) : Option Nat :=
  (ShExpr.fn args.toShs).shape.map fun r => r.1.foldl (· * ·) 1

mutual
/-- `overlapping_memory_checker_traits<E>::check_overlap` — utils/xutils.hpp:868-882 (expressions
with addressable elements), core/xfunction.hpp:169-204, views/xbroadcast.hpp:124-142,
generators/xgenerator.hpp:86-95.  A scalar held by value is not part of the destination; a scalar
held by reference is a zero-dimensional `arr`. -/
def Ex.overlaps {α : Type} (r : Int × Int) : Ex α → Bool
  | .arr c _ => if c.size = 0 then false else rangeOverlaps r c.firstAddr c.lastAddr
  | .scalar _ => false
  | .gen _ _ => false
  | .fn _ args => if args.fnSize = some 0 then false else args.anyOverlaps r
  | .bcast e s => if s.foldl (· * ·) 1 = 0 then false else e.overlaps r
/-- `check_tuple` — core/xfunction.hpp:174-190. -/
def Args.anyOverlaps {α : Type} (r : Int × Int) : Args α → Bool
  | .nil => false
  | .cons e es => e.overlaps r || es.anyOverlaps r
end

/-- `make_overlapping_memory_checker(d).check_overlap(e)` — utils/xutils.hpp:884-945. -/
def checkOverlap {α : Type} (d : StridedArr) (e : Ex α) : Bool :=
  match destRange d with
  | none => false
  | some r => e.overlaps r

/-! ### Containers -/

/-- `xcontainer_semantic::operator=(e)` — core/xsemantic.hpp:620-641, 680-684, with
`xcontainer_semantic::assign_temporary` (a move, 652-656) and `assign_xexpression` —
core/xassign.hpp:480-486.  `old` is the destination before, `d` the destination after
`resize(shape of e)`, `tmp` the temporary.  Result: the destination afterwards and the memory;
`none` when the operands cannot be broadcast (the exception precedes all stores). -/
def containerAssign (t : Traits) (ab : Nat) (old d tmp : StridedArr) (e : MEx β) (m : Mem β) :
    Option (StridedArr × Mem β) :=
  match resizeInfo e with
  | none => none
  | some r =>
    if checkOverlap old e then some (tmp, runTrace (assignTrace t ab tmp e r.2) m)
    else some (d, runTrace (assignTrace t ab d e r.2) m)

/-- The expression `a op b` assigned by `a op= b` — core/xsemantic.hpp:407-499. -/
def binEx [Inhabited β] (f : β → β → β) (a : StridedArr) (b : MEx β) : MEx β :=
  pwFn (fun vs => f (vs.getD 0 default) (vs.getD 1 default)) (.cons (rdArr a) (.cons b .nil))

/-- `std::lexicographical_compare(a, b, std::greater)`. -/
def lexGreater : List Nat → List Nat → Bool
  | [], [] => false
  | [], _ :: _ => true
  | _ :: _, [] => false
  | x :: xs, y :: ys => if x > y then true else if y > x then false else lexGreater xs ys

/-- `computed_assign(e1, e2)` — core/xassign.hpp:488-523, used by `noalias(a) += b`. -/
def computedAssign (t : Traits) (ab : Nat) (a tmp : StridedArr) (e : MEx β) (m : Mem β) :
    Option (StridedArr × Mem β) :=
  match resizeInfo e with
  | none => none
  | some r =>
    if decide (r.1.length > a.shape.length) || lexGreater r.1 a.shape then
      some (tmp, runTrace (assignTrace t ab tmp e r.2) m)
    else some (a, runTrace (assignTrace t ab a e r.2) m)

/-- `scalar_computed_assign(e1, e2, f)` on containers and adaptors — core/xassign.hpp:525-537: walks
`size()` elements of the storage. -/
def storageScalarTrace (d : StridedArr) (f : β → β) : List (List (Write β)) :=
  (List.range d.size).map fun (i : Nat) => [((d.off + i : Int), fun m => f (m (d.off + i)))]

/-! ### Views -/

/-- The right-hand side used by `xview_semantic::operator=` — core/xsemantic.hpp:772-793: the
expression itself if the shapes agree, else `broadcast(rhs, shape())`, whose shape is computed by
`broadcast_shape` — views/xbroadcast.hpp:289-316. -/
def viewRhs {α : Type} (d : StridedArr) (e : Ex α) : Option (Ex α) :=
  match e.exShape with
  | none => none
  | some s =>
    if s.length == d.shape.length && s == d.shape then some e
    else (broadcastShape s d.shape).map fun r => .bcast e r.1

/-- `detail::get_rhs_triviality` — core/xsemantic.hpp:704-722. -/
def rhsTriviality {α : Type} : Ex α → Bool
  | .fn _ args => ((ShExpr.fn args.toShs).shape.map Prod.snd).getD true
  | _ => true

/-- `std::copy(t.cbegin(), t.cend(), v.begin())`, `n` elements left. -/
def copyLoop (v tmp : StridedArr) : Nat → Int × List Nat → Int × List Nat → List (List (Write β))
  | 0, _, _ => []
  | n + 1, p, q =>
    [(p.1, fun m => m q.1)] ::
      copyLoop v tmp n (incStepper (xstepperOps v 0) .row_major v.shape p.1 p.2)
        (incStepper (xstepperOps tmp 0) .row_major tmp.shape q.1 q.2)

/-- `run_assign_temporary_impl` — views/xview.hpp:1748-1762, views/xstrided_view.hpp:412-436: the
strided loop when the traits allow it, `std::copy` otherwise. -/
def tempTrace (t : Traits) (v tmp : StridedArr) : List (List (Write β)) :=
  if t.simdStrided then
    let ls := getLoopSizes v (rdArr (β := β) tmp)
    if ls.can then stridedTrace v (rdArr tmp) t.contig1 ls t.width
    else stepperTrace v (rdArr tmp) (Layout.defaultAssignable .row_major t.layout)
  else
    copyLoop v tmp tmp.size (xstepperBegin v, List.replicate v.shape.length 0)
      (xstepperBegin tmp, List.replicate tmp.shape.length 0)

/-- `noalias(v) = e`, `xview_semantic::assign_xexpression` — core/xsemantic.hpp:724-731. -/
def viewNoalias (t : Traits) (ab : Nat) (d : StridedArr) (e : MEx β) (m : Mem β) : Option (Mem β) :=
  match e.exShape with
  | none => none
  | some s =>
    if broadcastable s d.shape then some (runTrace (assignTrace t ab d e (rhsTriviality e)) m)
    else none

/-- `xview_semantic::operator=(e)` — core/xsemantic.hpp:620-641, 693-698, 772-793.  `t`, `tt`
and `tc` are the traits for assigning the expression to the view, the expression to the temporary,
and the temporary to the view.  `none`: an exception, before any store to the
view. -/
def viewAssign (t tt tc : Traits) (ab abt : Nat) (d tmp : StridedArr) (e : MEx β) (m : Mem β) :
    Option (Mem β) :=
  match viewRhs d e with
  | none => none
  | some rhs =>
    if checkOverlap d rhs then
      match resizeInfo rhs with
      | none => none
      | some r => some (runTrace (tempTrace tc d tmp) (runTrace (assignTrace tt abt tmp rhs r.2) m))
    else viewNoalias t ab d rhs m

/-- Iterator loop of `xview_semantic::scalar_computed_assign` — core/xsemantic.hpp:757-770. -/
def iterScalarLoop (d : StridedArr) (f : β → β) : Nat → Int × List Nat → List (List (Write β))
  | 0, _ => []
  | n + 1, p =>
    [(p.1, fun m => f (m p.1))] ::
      iterScalarLoop d f n (incStepper (xstepperOps d 0) .row_major d.shape p.1 p.2)

/-- `xview_semantic::scalar_computed_assign` — core/xsemantic.hpp:742-770: `linear_begin()` when the
view type is contiguous, `begin()` otherwise. -/
def viewScalarTrace (contig : Bool) (d : StridedArr) (f : β → β) : List (List (Write β)) :=
  if contig then
    (List.range d.size).map fun (i : Nat) => [((d.off + i : Int), fun m => f (m (d.off + i)))]
  else iterScalarLoop d f d.size (xstepperBegin d, List.replicate d.shape.length 0)

end Xt
