/-!
# Specification: sizes that fit a machine word (C53)
-/

namespace Xt.Spec

/-- The product of the extents that are not zero. -/
def nonzeroProduct : List Nat → Nat
  | [] => 1
  | s :: ss => (if s = 0 then 1 else s) * nonzeroProduct ss

/-- A value of a signed type of range `-M` to `M - 1`, such as `M = 2 ^ 63`. -/
def FitsSigned (M : Nat) (v : Int) : Prop := -(M : Int) ≤ v ∧ v < M

end Xt.Spec
