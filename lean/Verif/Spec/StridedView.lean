import Verif.Spec.View
/-!
# Specification: slice vectors with an ellipsis
-/

namespace Xt.Spec

/-- The slice vector with its ellipsis replaced by as many `all` as there are axes of the parent not
addressed by the other slices. -/
def expandEllipsis (dim : Nat) (us : List USlice) : List USlice :=
  us.flatMap fun u => if u = .ellipsis then
    List.replicate (dim - (us.filter fun u => u ≠ .ellipsis ∧ u ≠ .newaxis).length) .all else [u]

/-- Slices that `strided_view` accepts: no `keep`, no `drop`. -/
def NoKeepDrop (us : List USlice) : Prop := ∀ u ∈ us, (∀ l, u ≠ .keep l) ∧ (∀ l, u ≠ .drop l)

/-- All integers in the slice vector are non-negative. -/
def IntsNonneg (us : List USlice) : Prop := ∀ c, .int c ∈ us → 0 ≤ c

end Xt.Spec
