import Verif.Model.Norms
import Verif.Model.Accumulator
/-!
# Model of elementwise operations, reductions and accumulations on elements of C++ integer types

core/xoperation.hpp, core/xmath.hpp, reducers/xreducer.hpp, reducers/xaccumulator.hpp.  The functors apply the built-in
operators, so operands are converted to a common type first.  Integers have the widths of the usual 64-bit platforms, two types
of the same width have the same rank, and a conversion keeps the value modulo 2^bits.  `none`: the behaviour is undefined.
Vectorised loops are not modelled.
-/

namespace Xt

/-- Type of `x op y`: both sides are promoted, the wider type is taken, and at equal widths an unsigned one. -/
def IntKind.usual (a b : IntKind) : IntKind :=
  let p := a.promoted
  let q := b.promoted
  if p.bits < q.bits then q else if q.bits < p.bits then p else ⟨p.bits, p.signed && q.signed⟩

/-- Conversion to a type. -/
def IntKind.conv (t : IntKind) (v : Int) : Int :=
  if t.signed then (v + 2 ^ (t.bits - 1)) % 2 ^ t.bits - 2 ^ (t.bits - 1) else v % 2 ^ t.bits

/-- The operators whose functors are modelled together — core/xoperation.hpp:106-108. -/
inductive IntOp
  | add
  | sub
  | mul
  deriving DecidableEq

/-- What an operator computes before the result is made to fit its type. -/
def IntOp.exact : IntOp → Int → Int → Int
  | .add, x, y => x + y
  | .sub, x, y => x - y
  | .mul, x, y => x * y

/-- `plus`, `minus`, `multiplies` — core/xoperation.hpp:68-81, 106-108. -/
def intOp (op : IntOp) (a b : IntKind) (x y : Int) : Option Int :=
  let t := a.usual b
  t.arith (op.exact (t.conv x) (t.conv y))

/-- `negate` — core/xoperation.hpp:105. -/
def intNeg (a : IntKind) (x : Int) : Option Int := a.promoted.arith (-(a.promoted.conv x))

/-- `divides` — core/xoperation.hpp:68-81, 109: division by 0, or of the least number by -1, is undefined. -/
def intDiv (a b : IntKind) (x y : Int) : Option Int :=
  let t := a.usual b
  if t.conv y = 0 then none else t.arith ((t.conv x).tdiv (t.conv y))

/-- `modulus` — core/xoperation.hpp:68-81, 110: undefined where the quotient is. -/
def intMod (a b : IntKind) (x y : Int) : Option Int :=
  let t := a.usual b
  if t.conv y = 0 then none else (t.arith ((t.conv x).tdiv (t.conv y))).map fun _ => (t.conv x).tmod (t.conv y)

/-- `less`, `greater` with the operands exchanged — core/xoperation.hpp:68-81, 120, 122. -/
def intLt (a b : IntKind) (x y : Int) : Bool := decide ((a.usual b).conv x < (a.usual b).conv y)

/-- `less_equal`, `greater_equal` with the operands exchanged — core/xoperation.hpp:68-81, 121, 123. -/
def intLe (a b : IntKind) (x y : Int) : Bool := decide ((a.usual b).conv x ≤ (a.usual b).conv y)

/-- `equal_to` — core/xoperation.hpp:68-81, 124. -/
def intEq (a b : IntKind) (x y : Int) : Bool := decide ((a.usual b).conv x = (a.usual b).conv y)

/-- `std::common_type_t`, the type of `xtl::select`: no promotion when the types are the same. -/
def IntKind.common (a b : IntKind) : IntKind := if a = b then a else a.usual b

/-- `minimum` — core/xmath.hpp:574-579. -/
def intMin (a b : IntKind) (x y : Int) : Int := (a.common b).conv (if intLt a b x y then x else y)

/-- `maximum` — core/xmath.hpp:589-594. -/
def intMax (a b : IntKind) (x y : Int) : Int := (a.common b).conv (if intLt b a y x then x else y)

/-- `clamp_fun`: `clip(v, lo, hi)` — core/xmath.hpp:603-608. -/
def intClip (a b c : IntKind) (v lo hi : Int) : Int :=
  let inner := (c.common a).conv (if intLt c a hi v then hi else v)
  (b.common (c.common a)).conv (if intLt a b v lo then lo else inner)

/-! ### Expressions -/

/-- An expression built from operands of integer types by `-`, `+`, `-`, `*` — core/xoperation.hpp:105-108, 303-330,
    core/xfunction.hpp:569-584. -/
inductive IntTm
  | arr (t : IntKind) (e : Ex Int)
  | neg (a : IntTm)
  | bin (op : IntOp) (a b : IntTm)

/-- `value_type` — core/xfunction.hpp:147-152. -/
def IntTm.kind : IntTm → IntKind
  | .arr t _ => t
  | .neg a => a.kind.promoted
  | .bin _ a b => a.kind.usual b.kind

/-- The element at an index — core/xfunction.hpp:569-584, 821-830. -/
def IntTm.eval (idx : List Nat) : IntTm → Option Int
  | .arr _ e => some (e.element (idx.map Int.ofNat))
  | .neg a => (a.eval idx).bind (intNeg a.kind)
  | .bin op a b => (a.eval idx).bind fun x => (b.eval idx).bind fun y => intOp op a.kind b.kind x y

/-- The element written by assigning the expression to a container with elements of type `dest`: a conversion —
    core/xassign.hpp:653-667. -/
def IntTm.store (dest : IntKind) (a : IntTm) (idx : List Nat) : Option Int := (a.eval idx).map dest.conv

/-! ### Reductions -/

/-- Type of the elements of `sum<T>(e)`, `prod<T>(e)`: that of `T() + E::value_type()`; `T = void` stands for the type of the
    elements — core/xmath.hpp:367-383, reducers/xreducer.hpp:764-771. -/
def redKind (T : Option IntKind) (E : IntKind) : IntKind := (T.getD E).usual E

/-- Functors of `sum` and `prod` — core/xmath.hpp:367-383, 1838, 1856, reducers/xreducer.hpp:1779-1828; `R` is the type of the
    result, which is that of `R() + E()` too, so that nothing is converted when the result is stored. -/
def intRedFns (op : IntOp) (R E : IntKind) (init : Int) : RedFns Int (Option Int) :=
  ⟨fun r v => r.bind fun r => intOp op R E r v, some (R.conv init), fun r q => r.bind fun r => q.bind fun q => intOp op R R r q⟩

/-- `sum<T>(e, axes)` — core/xmath.hpp:367-383, 1838. -/
def sumInts (T : Option IntKind) (E : IntKind) (e : Ex Int) (sh : List Nat) (axes : List Int) (keep : Bool) :
    Res (LazyEx (Option Int)) :=
  lazyReduce (intRedFns .add (redKind T E) E 0) (some 0) e sh axes keep

/-- `prod<T>(e, axes)` — core/xmath.hpp:367-383, 1856. -/
def prodInts (T : Option IntKind) (E : IntKind) (e : Ex Int) (sh : List Nat) (axes : List Int) (keep : Bool) :
    Res (LazyEx (Option Int)) :=
  lazyReduce (intRedFns .mul (redKind T E) E 1) (some 0) e sh axes keep

/-- `sum<T>(e, axis)` with an integer — core/xmath.hpp:385-394: the call it makes does not pass `T`. -/
def sumIntsAxis (_T : Option IntKind) (E : IntKind) (e : Ex Int) (sh : List Nat) (axis : Int) (keep : Bool) :
    Res (LazyEx (Option Int)) :=
  sumInts none E e sh [axis] keep

/-- `prod<T>(e, axis)` with an integer — core/xmath.hpp:385-394. -/
def prodIntsAxis (_T : Option IntKind) (E : IntKind) (e : Ex Int) (sh : List Nat) (axis : Int) (keep : Bool) :
    Res (LazyEx (Option Int)) :=
  prodInts none E e sh [axis] keep

/-- `mean_division<T>` of one element — core/xmath.hpp:1862-1869: the quotient of the sum by a `double`, or by a `T`, which is
    one of integers; `R` is the type of the sum. -/
def meanQuotient (T : Option IntKind) (R : IntKind) (s : Int) (count : Nat) : Option ℚ :=
  match T with
  | none => some ((s : ℚ) / (count : ℚ))
  | some t => (intDiv R t s (t.conv count)).map fun q => (q : ℚ)

/-- `mean<T>(e, axes)` — core/xmath.hpp:1871-1887, 1926-1935. -/
def meanInts (T : Option IntKind) (E : IntKind) (e : Ex Int) (sh : List Nat) (axes : List Int) (keep : Bool) :
    Res (LazyEx (Option ℚ)) :=
  (sumInts T E e sh axes keep).map fun s =>
    ⟨s.shape, fun i => (s.elem i).bind fun v => meanQuotient T (redKind T E) v (sh.foldl (· * ·) 1 / s.size)⟩

/-! ### Accumulations -/

/-- `cumsum<T>(e, axis)` and `cumprod<T>(e, axis)` — core/xmath.hpp:2283-2292, 2316-2325, reducers/xaccumulator.hpp:215-297: the
    elements are first copied into a container of the type of the result. -/
def cumInts (op : IntOp) (T : Option IntKind) (E : IntKind) (L : Layout) (sh : List Nat) (vals : List Int) (axis : Int) :
    Res (List (Option Int)) :=
  let R := redKind T E
  accumulate L L sh (vals.map fun v => some (R.conv v))
    (fun p v => p.bind fun p => v.bind fun v => intOp op R R p v) none axis

/-- `cumsum<T>(e)` and `cumprod<T>(e)` — core/xmath.hpp:2294-2302, 2327-2335, reducers/xaccumulator.hpp:299-330: `vals` are the
    elements met by the iteration; the first is stored as it is. -/
def cumIntsFlat (op : IntOp) (T : Option IntKind) (E : IntKind) (vals : List Int) : List (Option Int) :=
  let R := redKind T E
  accumulateFlat (fun p v => p.bind fun p => v.bind fun v => intOp op R R p v) none (vals.map fun v => some (R.conv v))

end Xt
