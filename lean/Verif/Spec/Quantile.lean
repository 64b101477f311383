import Mathlib.Algebra.Order.Ring.Rat
/-!
# Specification: sample quantiles

After Hyndman and Fan, "Sample quantiles in statistical packages" (1996).  Nothing here refers to the C++ code.
-/

namespace Xt.Spec

/-- Plotting position of the `k`-th smallest of `n` values, counted from 0. -/
def plotPos (n : Nat) (a b : ℚ) (k : Nat) : ℚ := ((k : ℚ) + 1 - a) / ((n : ℚ) + 1 - a - b)

/-- `q` is the quantile of probability `p` of the values `s`, given in nondecreasing order: it interpolates linearly between
the plotting positions of neighbours, and is the smallest value below the first and the largest above the last. -/
def IsQuantile (s : List ℚ) (a b p q : ℚ) : Prop :=
  (∀ (k : Nat) (t : ℚ), k + 1 < s.length → 0 ≤ t → t ≤ 1 →
    p = plotPos s.length a b k + t * (plotPos s.length a b (k + 1) - plotPos s.length a b k) →
    q = s.getD k 0 + t * (s.getD (k + 1) 0 - s.getD k 0)) ∧
  (p ≤ plotPos s.length a b 0 → q = s.getD 0 0) ∧
  (plotPos s.length a b (s.length - 1) ≤ p → q = s.getD (s.length - 1) 0)

end Xt.Spec
