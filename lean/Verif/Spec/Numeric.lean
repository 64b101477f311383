import Mathlib.Algebra.Order.Ring.Rat
import Mathlib.Algebra.BigOperators.Group.Finset.Basic
import Mathlib.Data.Nat.Choose.Basic
/-!
# Specification: numerical functions

Nothing here refers to the C++ code.
-/

namespace Xt.Spec

open Finset

/-- The `n`-th finite difference of `f` at `k`. -/
def finiteDiff (n : Nat) (f : Nat → ℚ) (k : Nat) : ℚ :=
  ∑ j ∈ range (n + 1), (-1) ^ (n - j) * (n.choose j : ℚ) * f (k + j)

/-- Area of the trapezoids below the points `(x k, y k)`, `k < n`. -/
def trapezoids (n : Nat) (x y : Nat → ℚ) : ℚ := ∑ k ∈ range (n - 1), (x (k + 1) - x k) * (y k + y (k + 1)) / 2

/-- `(x, y)` is on the segment between two consecutive points `(xp i, fp i)` of which the first is strictly left of the
    second. -/
def OnSegment (xp fp : List ℚ) (x y : ℚ) : Prop :=
  ∃ i, i + 1 < xp.length ∧ xp.getD i 0 < xp.getD (i + 1) 0 ∧ xp.getD i 0 ≤ x ∧ x ≤ xp.getD (i + 1) 0 ∧
    y * (xp.getD (i + 1) 0 - xp.getD i 0) =
      fp.getD i 0 * (xp.getD (i + 1) 0 - x) + fp.getD (i + 1) 0 * (x - xp.getD i 0)

/-- Covariance of two samples of `n` observations. -/
def covariance (n : Nat) (x y : Nat → ℚ) : ℚ :=
  (∑ k ∈ range n, (x k - (∑ i ∈ range n, x i) / n) * (y k - (∑ i ∈ range n, y i) / n)) / ((n : ℚ) - 1)

/-- Coefficient `k` of the convolution of two sequences: the sum of all products of elements whose positions add up to `k`. -/
def convCoeff (a v : List ℚ) (k : Nat) : ℚ :=
  ∑ i ∈ range a.length, ∑ j ∈ range v.length, if i + j = k then a.getD i 0 * v.getD j 0 else 0

end Xt.Spec
