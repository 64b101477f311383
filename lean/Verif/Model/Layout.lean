/-!
# Model of `core/xlayout.hpp`
-/

namespace Xt

/-- `enum class layout_type` — core/xlayout.hpp:23-33. -/
inductive Layout
  | dynamic | any | row_major | column_major
  deriving DecidableEq, Repr

namespace Layout

/-- Underlying value of the enumerators — core/xlayout.hpp:26-32. -/
def toBits : Layout → Nat
  | .dynamic => 0x00
  | .any => 0xFF
  | .row_major => 0x01
  | .column_major => 0x02

/-- Conversion `layout_type(x)` of an integer back to the enumeration.  The C++ cast is defined
for every integer; only the four named values are enumerators, other values have no name and are
`none` here (they never arise, see `combine2?_isSome`). -/
def ofBits : Nat → Option Layout
  | 0x00 => some .dynamic
  | 0xFF => some .any
  | 0x01 => some .row_major
  | 0x02 => some .column_major
  | _ => none

/-- `compute_layout_impl(lhs, rhs)` — core/xlayout.hpp:74-78: bitwise and of the values. -/
def combine2? (l r : Layout) : Option Layout := ofBits (l.toBits &&& r.toBits)

/-- Total form of `combine2?` (the default is unreachable, `combine2?_isSome`). -/
def combine2 (l r : Layout) : Layout := (combine2? l r).getD .dynamic

/-- `compute_layout(args...)` — core/xlayout.hpp:64-91: `any` for no argument, the argument
itself for one, otherwise combine the head with the result for the tail. -/
def computeLayout : List Layout → Layout
  | [] => .any
  | [l] => l
  | l :: ls => combine2 l (computeLayout ls)

/-- `default_assignable_layout` — core/xlayout.hpp:93-96, with `XTENSOR_DEFAULT_LAYOUT` as
argument `dflt`. -/
def defaultAssignable (dflt l : Layout) : Layout :=
  if l = .row_major ∨ l = .column_major then l else dflt

/-- `layout_remove_any` — core/xlayout.hpp:98-101. -/
def removeAny (dflt l : Layout) : Layout :=
  if l = .any then dflt else l

end Layout
end Xt
