import Verif.Spec.Index
/-!
# Specification: accumulations along an axis
-/

namespace Xt.Spec

variable {β : Type}

/-- The element of the accumulation at `idx`: left fold of `f` over the elements from coordinate 0 up to that
of `idx` on the given axis, the first one passed through `g`. -/
def accValue (f : β → β → β) (g : β → β) (val : List Nat → β) (axis : Nat) (idx : List Nat) : β :=
  ((List.range' 1 (idx.getD axis 0)).map fun k => val (idx.set axis k)).foldl f (g (val (idx.set axis 0)))

end Xt.Spec
