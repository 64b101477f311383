import Verif.Model.View
/-!
# `row` and `col`
-/

namespace Xt

/-- `row(e, index)`: the dimension is checked when it is not known at compile time (otherwise a wrong one does not compile),
then it is `view(e, index, all())` — views/xview.hpp:1832-1862 (`row_impl`), 1908-1912. -/
def rowExpr (sh : List Nat) (i : Int) : Res (List Sl) :=
  if sh.length ≠ 2 then .throws else makeView sh [.int i, .all]

/-- `col(e, index)`: `view(e, all(), index)` — views/xview.hpp:1864-1894 (`column_impl`), 1923-1927. -/
def colExpr (sh : List Nat) (i : Int) : Res (List Sl) :=
  if sh.length ≠ 2 then .throws else makeView sh [.all, .int i]

end Xt
