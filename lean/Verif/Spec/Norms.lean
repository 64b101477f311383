import Mathlib.Algebra.Order.Ring.Rat
import Mathlib.Algebra.Order.Group.Abs
import Mathlib.Algebra.BigOperators.Group.List.Basic
/-!
# Specification: norms of finite families of numbers

Nothing here refers to the C++ code.
-/

namespace Xt.Spec

/-- Number of entries that are not zero. -/
def count0 (l : List ℚ) : ℚ := ((l.filter fun x => decide (x ≠ 0)).length : ℚ)

/-- Sum of the absolute values. -/
def absSum (l : List ℚ) : ℚ := (l.map fun x => |x|).sum

/-- Sum of the squares. -/
def squareSum (l : List ℚ) : ℚ := (l.map fun x => x ^ 2).sum

/-- Sum of the `p`-th powers of the absolute values; for `p = 0` the number of entries that are not zero. -/
def powerSum (p : Nat) (l : List ℚ) : ℚ := if p = 0 then count0 l else (l.map fun x => |x| ^ p).sum

/-- The largest of a family. -/
def IsGreatestOf (v : ℚ) (l : List ℚ) : Prop := v ∈ l ∧ ∀ x ∈ l, x ≤ v

/-- The smallest of a family. -/
def IsLeastOf (v : ℚ) (l : List ℚ) : Prop := v ∈ l ∧ ∀ x ∈ l, v ≤ x

end Xt.Spec
