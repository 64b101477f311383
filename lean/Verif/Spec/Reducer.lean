import Verif.Spec.Index
/-!
# Specification: reductions over a set of axes
-/

namespace Xt.Spec

/-- Removes the entries on the given axes, or replaces them by a fixed value.  `p` is the axis of the
first entry. -/
def dropAxes (axes : List Nat) (fill : Option Nat) : Nat → List Nat → List Nat
  | _, [] => []
  | p, i :: is =>
    if p ∈ axes then
      match fill with
      | some v => v :: dropAxes axes fill (p + 1) is
      | none => dropAxes axes fill (p + 1) is
    else i :: dropAxes axes fill (p + 1) is

/-- Shape of the reduction: the axes are removed, or set to 1 with `keep_dims`. -/
def redShape (sh axes : List Nat) (keep : Bool) : List Nat :=
  dropAxes axes (if keep then some 1 else none) 0 sh

/-- The element of the reduction to which an element of the input contributes: the kept
coordinates (a 0 on each reduced axis with `keep_dims`). -/
def redIndex (axes : List Nat) (keep : Bool) (idx : List Nat) : List Nat :=
  dropAxes axes (if keep then some 0 else none) 0 idx

/-- The indices contributing to an element of the reduction, in row-major order. -/
def redGroup (sh axes : List Nat) (keep : Bool) (ridx : List Nat) : List (List Nat) :=
  (rowIndices sh).filter fun idx => redIndex axes keep idx = ridx

/-- Axes are strictly increasing and name axes of the expression. -/
def GoodAxes (dim : Nat) (axes : List Nat) : Prop :=
  axes.Pairwise (· < ·) ∧ ∀ a ∈ axes, a < dim

instance (dim : Nat) (axes : List Nat) : Decidable (GoodAxes dim axes) := by
  unfold GoodAxes; infer_instance

end Xt.Spec
