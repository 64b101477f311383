import Verif.Model.Norms
import Verif.Model.Assign
import Verif.Model.Accumulator
import Mathlib.Order.WithBot
import Mathlib.Data.Rat.Cast.Order
/-!
# Model of element functions of core/xmath.hpp on all floating-point values

`minimum`, `maximum`, `clip`, `sign`, `pow<N>`, `isclose`, `allclose`, `nan_to_num`, and `amin`, `amax`, `nansum`,
`nancumsum`, `nancumprod` on arrays that hold infinities and NaN.  Numbers are rationals: rounding, overflow to an infinity and
the sign of zero are not modelled.
-/

namespace Xt

variable {R : Type}

/-- A floating-point value. -/
inductive Flt
  | nan
  | inf (neg : Bool)
  | fin (q : ℚ)
  deriving DecidableEq

instance : Inhabited Flt := ⟨.fin 0⟩

/-- `std::isnan`. -/
def Flt.isNan : Flt → Bool
  | .nan => true
  | _ => false

/-- `std::isinf`. -/
def Flt.isInf : Flt → Bool
  | .inf _ => true
  | _ => false

/-- `a < b`. -/
def Flt.lt : Flt → Flt → Bool
  | .fin a, .fin b => decide (a < b)
  | .fin _, .inf n => !n
  | .inf n, .fin _ => n
  | .inf n, .inf m => n && !m
  | _, _ => false

/-- `a <= b`. -/
def Flt.le : Flt → Flt → Bool
  | .fin a, .fin b => decide (a ≤ b)
  | .fin _, .inf n => !n
  | .inf n, .fin _ => n
  | .inf n, .inf m => n || !m
  | _, _ => false

/-- `a == b`. -/
def Flt.eq : Flt → Flt → Bool
  | .fin a, .fin b => decide (a = b)
  | .inf n, .inf m => n == m
  | _, _ => false

/-- `a + b`. -/
def Flt.add : Flt → Flt → Flt
  | .fin a, .fin b => .fin (a + b)
  | .fin _, .inf n => .inf n
  | .inf n, .fin _ => .inf n
  | .inf n, .inf m => if n = m then .inf n else .nan
  | _, _ => .nan

/-- `-a`. -/
def Flt.neg : Flt → Flt
  | .nan => .nan
  | .inf n => .inf !n
  | .fin q => .fin (-q)

/-- `a - b`. -/
def Flt.sub (a b : Flt) : Flt := a.add b.neg

/-- `a * b`. -/
def Flt.mul : Flt → Flt → Flt
  | .fin a, .fin b => .fin (a * b)
  | .fin a, .inf n => if a = 0 then .nan else .inf (decide (a < 0) != n)
  | .inf n, .fin a => if a = 0 then .nan else .inf (n != decide (a < 0))
  | .inf n, .inf m => .inf (n != m)
  | _, _ => .nan

/-- `std::abs`. -/
def Flt.abs : Flt → Flt
  | .nan => .nan
  | .inf _ => .inf false
  | .fin q => .fin |q|

/-- `std::max(a, b)`. -/
def Flt.stdMax (a b : Flt) : Flt := if a.lt b then b else a

/-- `math::minimum` — core/xmath.hpp:572-586. -/
def minimumF (a b : Flt) : Flt := if a.lt b then a else b

/-- `math::maximum` — core/xmath.hpp:588-602; `t1 > t2` is `t2 < t1`. -/
def maximumF (a b : Flt) : Flt := if b.lt a then a else b

/-- `math::clamp_fun` — core/xmath.hpp:604-617. -/
def clampF (v lo hi : Flt) : Flt := if v.lt lo then lo else if hi.lt v then hi else v

/-- `sign_impl::run` on real numbers — core/xmath.hpp:827-836. -/
def signF (x : Flt) : Flt :=
  if x.isNan then .nan else if x.eq (.fin 0) then .fin 0 else if x.lt (.fin 0) then .fin (-1) else .fin 1

/-- `sign_impl::run` on complex numbers — core/xmath.hpp:838-847. -/
def signC (z : Flt × Flt) : Flt × Flt := (signF (if !z.1.eq (.fin 0) then z.1 else z.2), .fin 0)

/-- `sign_impl::run` on unsigned integers — core/xmath.hpp:849-853. -/
def signU (x : Nat) : Nat := if x > 0 then 1 else 0

/-- `nan_to_num_functor` — core/xmath.hpp:2344-2365; `lo` and `hi` are `lowest()` and `max()`. -/
def nanToNum (lo hi : ℚ) (a : Flt) : Flt :=
  if a.isNan then .fin 0 else if a.isInf then (if a.lt (.fin 0) then .fin lo else .fin hi) else a

/-- `pow_impl<N>` — core/xmath.hpp:1166-1198: `T temp` converts the inner result back to the element type, `narrow`.  The
    first argument bounds the depth of the recursion. -/
def powImpl (mul : R → R → R) (one : R) (narrow : R → R) : Nat → Nat → R → R
  | 0, _, _ => one
  | fuel + 1, n, v =>
    if n = 0 then one else if n = 1 then v
    else
      let t := narrow (powImpl mul one narrow fuel (n / 2) v)
      mul (mul t t) (if n % 2 = 1 then v else one)

/-- `pow<N>(e)` on one element — core/xmath.hpp:1219-1224. -/
def powN (mul : R → R → R) (one : R) (narrow : R → R) (n : Nat) (v : R) : R := powImpl mul one narrow n n v

/-- Conversion of an `int` to `int8_t`. -/
def toInt8 (z : Int) : Int := (z + 128) % 256 - 128

/-- `detail::isclose::operator()` — core/xmath.hpp:1742-1759. -/
def iscloseF (rtol atol : Flt) (equalNan : Bool) (a b : Flt) : Bool :=
  if a.isNan && b.isNan then equalNan
  else if a.isInf && b.isInf then a.eq b
  else
    let d := (a.sub b).abs
    d.le atol || d.le (rtol.mul (a.abs.stdMax b.abs))

/-- `isclose` on operands; a `bool` is 1 or 0. -/
def iscloseOp (rtol atol : Flt) (equalNan : Bool) : List Flt → Flt
  | [a, b] => if iscloseF rtol atol equalNan a b then .fin 1 else .fin 0
  | _ => .fin 0

/-- `isclose(e1, e2, rtol, atol, equal_nan)` — core/xmath.hpp:1782-1792. -/
def iscloseEx (rtol atol : Flt) (equalNan : Bool) (e1 e2 : Ex Flt) : Ex Flt :=
  .fn (iscloseOp rtol atol equalNan) (.cons e1 (.cons e2 .nil))

/-- `allclose(e1, e2, rtol, atol)`, declared `noexcept` — core/xmath.hpp:1808-1812; `all` — core/xoperation.hpp:959-972. -/
def allcloseEx (rtol atol : Flt) (e1 e2 : Ex Flt) : Ending Bool :=
  let c := iscloseEx rtol atol false e1 e2
  insideNoexcept (match c.exShape with
    | none => .throws
    | some sh => .ok ((c.values .row_major sh).all fun v => v != .fin 0))

/-- Functors of `amin` — core/xmath.hpp:795-800, reducers/xreducer.hpp:636-640: `merge` is the same functor. -/
def aminFnsF (hi : ℚ) : RedFns Flt Flt := ⟨minimumF, .fin hi, minimumF⟩

/-- Functors of `amax` — core/xmath.hpp:777-782. -/
def amaxFnsF (lo : ℚ) : RedFns Flt Flt := ⟨maximumF, .fin lo, maximumF⟩

/-- `nan_plus` — core/xmath.hpp:2398-2405. -/
def nanPlusF (l r : Flt) : Flt := if !r.isNan then l.add r else l

/-- `nan_multiplies` — core/xmath.hpp:2407-2414. -/
def nanTimesF (l r : Flt) : Flt := if !r.isNan then l.mul r else l

/-- `nan_init<T, V>` — core/xmath.hpp:2416-2426. -/
def nanInitF (v : ℚ) (x : Flt) : Flt := if x.isNan then .fin v else x

/-- Functors of `nansum` — core/xmath.hpp:2494, reducers/xreducer.hpp:636-640: `merge` is the same functor. -/
def nanSumFnsF : RedFns Flt Flt := ⟨nanPlusF, .fin 0, nanPlusF⟩

/-- `nancumsum(e, axis)` — core/xmath.hpp:2627-2636; the accumulation works on the copy `data` of the elements. -/
def nanCumsum (SL l : Layout) (sh : List Nat) (data : List Flt) (axis : Int) : Res (List Flt) :=
  accumulate SL l sh data nanPlusF (some (nanInitF 0)) axis

/-- `nancumsum(e)` — core/xmath.hpp:2638-2646. -/
def nanCumsumFlat (e : Ex Flt) (sh : List Nat) : List Flt :=
  accumulateFlat nanPlusF (some (nanInitF 0)) (e.values .row_major sh)

/-- `nancumprod(e)` — core/xmath.hpp:2675-2683. -/
def nanCumprodFlat (e : Ex Flt) (sh : List Nat) : List Flt :=
  accumulateFlat nanTimesF (some (nanInitF 1)) (e.values .row_major sh)

end Xt
