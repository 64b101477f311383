/-!
# Specification: NumPy broadcasting rule

Axes are counted from the right: `axisR s k` is the extent of the axis `k` places from the end.
-/

namespace Xt.Spec

/-- Extent of the `k`-th axis counted from the last one, if the shape has it. -/
def axisR (s : List Nat) (k : Nat) : Option Nat := s.reverse[k]?

/-- `out` is the broadcast of the shapes `S`: it has as many axes as the longest shape, and on every
axis the extents present are each 1 or the output extent, which one of them attains. The relation
only looks at `S` as a set. -/
structure IsBroadcast (S : List (List Nat)) (out : List Nat) : Prop where
  len_le : ∀ s ∈ S, s.length ≤ out.length
  compatible : ∀ k d, axisR out k = some d → ∀ s ∈ S, ∀ e, axisR s k = some e → e = 1 ∨ e = d
  attained : ∀ k d, axisR out k = some d → ∃ s ∈ S, axisR s k = some d

/-- Two of the shapes have different extents, neither 1, on the same axis. -/
def Conflict (S : List (List Nat)) : Prop :=
  ∃ s ∈ S, ∃ t ∈ S, ∃ k d e, axisR s k = some d ∧ axisR t k = some e ∧ d ≠ e ∧ d ≠ 1 ∧ e ≠ 1

end Xt.Spec
