import Mathlib.Algebra.Order.Ring.Rat
import Mathlib.Algebra.BigOperators.Group.List.Basic
/-!
# Specification: statistics of finite samples

Nothing here refers to the C++ code.
-/

namespace Xt.Spec

/-- Arithmetic mean. -/
def listMean (l : List ℚ) : ℚ := l.sum / l.length

/-- Sum of the squared deviations from the mean. -/
def sumSqDev (l : List ℚ) : ℚ := (l.map fun x => (x - listMean l) ^ 2).sum

/-- Variance with `ddof` degrees of freedom taken off. -/
def listVariance (ddof : Nat) (l : List ℚ) : ℚ := sumSqDev l / ((l.length : ℚ) - ddof)

/-- Mean of values, each with its weight. -/
def weightedMean (l : List (ℚ × ℚ)) : ℚ := (l.map fun p => p.1 * p.2).sum / (l.map Prod.snd).sum

/-- The values that are numbers. -/
def numbers (l : List (Option ℚ)) : List ℚ := l.filterMap id

end Xt.Spec
