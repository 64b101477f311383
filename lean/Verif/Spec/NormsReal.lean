import Mathlib.Analysis.SpecialFunctions.Pow.NNReal
import Mathlib.Order.Bounds.Basic
/-!
# Specification: norms of families of real numbers and operator norms

Nothing here refers to the C++ code.
-/

namespace Xt.Spec

/-- Number of entries that are not zero. -/
noncomputable def nonZeros (l : List ℝ) : Int := ((l.filter fun x => decide (x ≠ 0)).length : Int)

/-- Sum of the absolute values. -/
noncomputable def absTotal (l : List ℝ) : ℝ := (l.map fun x => |x|).sum

/-- Sum of the squares. -/
noncomputable def squareTotal (l : List ℝ) : ℝ := (l.map fun x => x ^ 2).sum

/-- The `p`-norm `(∑ |x|^p)^(1/p)`. -/
noncomputable def pNorm (p : ℝ) (l : List ℝ) : ℝ := ((l.map fun x => |x| ^ p).sum) ^ (1 / p)

/-- The largest absolute value; 0 for the empty family. -/
def IsMaxAbs (v : ℝ) (l : List ℝ) : Prop :=
  0 ≤ v ∧ (∀ x ∈ l, |x| ≤ v) ∧ (l ≠ [] → ∃ x ∈ l, |x| = v) ∧ (l = [] → v = 0)

/-- Entry `i` of the product of a matrix with `n` columns and a vector. -/
noncomputable def matVec (A : Nat → Nat → ℝ) (n : Nat) (x : Nat → ℝ) (i : Nat) : ℝ := ∑ j ∈ Finset.range n, A i j * x j

/-- Sum of the absolute values of the first `n` entries of a vector. -/
noncomputable def vecL1 (n : Nat) (x : Nat → ℝ) : ℝ := ∑ j ∈ Finset.range n, |x j|

/-- Largest absolute value among the first `n` entries of a vector; 0 if there are none. -/
noncomputable def vecLinf (n : Nat) (x : Nat → ℝ) : ℝ := ((Finset.range n).sup fun j => Real.nnabs (x j) : NNReal)

/-- Operator norm of an `m × n` matrix for a norm of vectors of every length: the least bound for the growth of a vector. -/
def IsOperatorNorm (nrm : Nat → (Nat → ℝ) → ℝ) (A : Nat → Nat → ℝ) (m n : Nat) (v : ℝ) : Prop :=
  IsLeast {c : ℝ | 0 ≤ c ∧ ∀ x, nrm m (matVec A n x) ≤ c * nrm n x} v

end Xt.Spec
