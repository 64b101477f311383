import Verif.Model.Reducer
/-!
# `count_nonzero`
-/

namespace Xt

/-- Functors of `count_nonzero(e, axes, es)`: the count starts at 0, an element that is not zero adds 1, counts of parts are
added — core/xmath.hpp:2513-2576. -/
def countFns {α : Type} [DecidableEq α] [Zero α] : RedFns α Nat :=
  ⟨fun l r => if r ≠ 0 then l + 1 else l, 0, (· + ·)⟩

end Xt
