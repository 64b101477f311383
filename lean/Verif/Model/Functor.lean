import Verif.Model.Semantic
/-!
# Model of `views/xfunctor_view.hpp`, `views/xoffset_view.hpp` and `misc/xcomplex.hpp`

`real(c)` and `imag(c)` of an array of complex numbers.  Addresses count numbers of the real type:
the complex number at position `p` of a storage consists of the cells `2 * p` and `2 * p + 1`.  The
shape, strides and layout of the view are those of `c` (views/xfunctor_view.hpp:706-755), its
steppers and iterators those of `c` with the functor applied on dereferencing
(views/xfunctor_view.hpp:1359-1390, 1510-1647); so every loop is a loop over positions of `c` with
the cell chosen at the end.  Packed loads and stores (`proxy_simd_load`, `proxy_simd_store`) are left
out.
-/

namespace Xt

variable {β : Type}

/-- `offset_forwarder<M, I>::operator()` — views/xoffset_view.hpp:36-40: the subobject at byte `I` of
the element; `k = 0` for `real` (`I = 0`), `k = 1` for `imag` (`I = sizeof(M)`) —
misc/xcomplex.hpp:50-62. -/
def partAddr (k : Nat) (p : Int) : Int := 2 * p + k

/-- `real(c)`, `imag(c)` as operand — misc/xcomplex.hpp:50-62. -/
def partEx (k : Nat) (c : StridedArr) : MEx β := .arr c fun p m => m (partAddr k p)

/-- `f(c)` for a function from complex to real numbers, like `norm` — misc/xcomplex.hpp:249-262. -/
def wholeEx (f : β → β → β) (c : StridedArr) : MEx β :=
  .arr c fun p m => f (m (2 * p)) (m (2 * p + 1))

/-- What the elements of an operand are: real numbers of an array of real numbers, one part of
complex numbers, or complex numbers. -/
inductive ElemKind
  | plain
  | part (k : Nat)
  | whole
deriving DecidableEq

/-- `std::addressof` of the element at position `p` — utils/xutils.hpp:868-882. -/
def ElemKind.address : ElemKind → Int → Int
  | .plain, p => p
  | .part k, p => partAddr k p
  | .whole, p => 2 * p

/-- A right-hand side with the kinds of its operands, in the order of `Ex.arrs`. -/
structure PartRhs (β : Type) where
  e : MEx β
  kinds : List ElemKind

/-- `make_overlapping_memory_checker(view).check_overlap(e)` — utils/xutils.hpp:827-945,
core/xfunction.hpp:169-204, views/xbroadcast.hpp:124-142: addresses of the first and last elements
are compared.  Empty operands of a non-empty expression do not exist (the expression has the shape of
the view). -/
def partOverlap (k : Nat) (c : StridedArr) (e : MEx β) (kinds : List ElemKind) : Bool :=
  if c.size = 0 then false
  else
    let r := memoryRange (partAddr k c.firstAddr) (partAddr k c.lastAddr)
    (e.arrs.zip kinds).any fun (x : StridedArr × ElemKind) =>
      rangeOverlaps r (x.2.address x.1.firstAddr) (x.2.address x.1.lastAddr)

/-- The stores of a loop over `c`, made through the functor — views/xfunctor_view.hpp:763-815,
1359-1390, 1548-1552, 1595-1599. -/
def partTrace (k : Nat) (bs : List (List (Write β))) : List (List (Write β)) :=
  bs.map fun (b : List (Write β)) => b.map fun (w : Write β) => (partAddr k w.1, w.2)

/-- Traits without packed loops. -/
def Traits.scalarOnly (t : Traits) : Traits := { t with simdLinear := false, simdStrided := false }

/-- `real(c) = e`, `imag(c) = e` — `xfunctor_view::operator=` (views/xfunctor_view.hpp:1401-1416),
`xview_semantic::operator=` and `xsemantic_base::operator=` (core/xsemantic.hpp:620-641, 693-731,
772-793), `assign_temporary_impl` (views/xfunctor_view.hpp:1428-1432).  `none`: an exception, before
any store to the view. -/
def partAssign (t tt : Traits) (ab abt : Nat) (k : Nat) (c tmp : StridedArr) (r : PartRhs β)
    (m : Mem β) : Option (Mem β) :=
  match viewRhs c r.e with
  | none => none
  | some rhs =>
    if partOverlap k c rhs r.kinds then
      match resizeInfo rhs with
      | none => none
      | some s =>
        some (runTrace (partTrace k (copyLoop c tmp tmp.size
            (xstepperBegin c, List.replicate c.shape.length 0)
            (xstepperBegin tmp, List.replicate tmp.shape.length 0)))
          (runTrace (assignTrace tt abt tmp rhs s.2) m))
    else
      match rhs.exShape with
      | none => none
      | some s =>
        if broadcastable s c.shape then
          some (runTrace (partTrace k (assignTrace t.scalarOnly ab c rhs (rhsTriviality rhs))) m)
        else none

/-- The loop `*dst = f(*dst, e); ++dst` of `xview_semantic::scalar_computed_assign` —
core/xsemantic.hpp:742-770: the positions are visited as for other views, the value is read and
stored through the functor. -/
def partScalarTrace (k : Nat) (contig : Bool) (c : StridedArr) (f : β → β) : List (List (Write β)) :=
  (viewScalarTrace (β := β) contig c id).map fun (b : List (Write β)) =>
    b.map fun (w : Write β) => (partAddr k w.1, fun m => f (m (partAddr k w.1)))

/-- `real(c) = x`: `std::fill(begin(), end(), x)` — views/xfunctor_view.hpp:1420-1426. -/
def partFill (k : Nat) (c : StridedArr) (x : β) (m : Mem β) : Mem β :=
  runTrace (partScalarTrace k false c fun _ => x) m

/-! ### Iterators -/

variable {σ : Type}

/-- `operator==(lhs, rhs)` — views/xfunctor_view.hpp:1560-1576. -/
def fiterEqual (a b : XIter σ) : Bool := a.equal b

/-- `operator<(lhs, rhs)` — views/xfunctor_view.hpp:1566-1570, 1578-1582. -/
def fiterLess (a b : XIter σ) : Bool := !a.lessThan b

/-- `operator-(rhs)` — views/xfunctor_view.hpp:1542-1546. -/
def fiterDiff (a b : XIter σ) : Int := a.diff b

/-! ### Adaptors -/

/-- Length of `linear_begin()`..`linear_end()` — core/xfunction.hpp:754-783: iterators of a function
are compared by their first operand that is not a scalar (core/xfunction.hpp:1002-1010); the iterators
of a broadcast expression are those of its operand (views/xbroadcast.hpp:97-119). -/
def linearLength (e : MEx β) : Nat :=
  match e.arrs with
  | [] => 0
  | c :: _ => c.size

/-- `xfunctor_adaptor::operator=(e)` — views/xfunctor_view.hpp:1452-1470.  `c` is the underlying
container after `resize(e.shape())`, `l` its layout, `le` the layout of the expression. -/
def adaptorAssign (k : Nat) (l le : Layout) (c : StridedArr) (e : MEx β) (m : Mem β) : Mem β :=
  if l == le then
    runTrace (partTrace k ((List.range (linearLength e)).map fun (i : Nat) =>
      [((c.off + i : Int), e.dataElement i)])) m
  else runTrace (partTrace k (stepperTrace c e .row_major)) m

end Xt
