import Verif.Model.Sort
/-!
# Model: membership and insertion points (`misc/xset_operation.hpp`, `misc/xhistogram.hpp`)
-/

namespace Xt

/-- The lambda of `isin` — misc/xset_operation.hpp:31-55, 70-78, 90-98, 110-118: `std::find` over the test elements. -/
def isinAt {α : Type} [DecidableEq α] : List α → α → Bool
  | [], _ => false
  | y :: ys, x => if y = x then true else isinAt ys x

/-- `std::lower_bound` on a range partitioned by `· < x`: the first element that is not less. -/
def lowerBound {α : Type} [LinearOrder α] (a : List α) (x : α) : Nat := (a.takeWhile fun y => decide (y < x)).length

/-- `std::upper_bound`: the first element that is greater. -/
def upperBound {α : Type} [LinearOrder α] (a : List α) (x : α) : Nat := (a.takeWhile fun y => decide (y ≤ x)).length

/-- Body of the loops of `searchsorted` — misc/xset_operation.hpp:194-207. -/
def searchPoint {α : Type} [LinearOrder α] (a : List α) (right : Bool) (x : α) : Nat :=
  if right then lowerBound a x else upperBound a x

/-- Loop `for (i = 0; i < v.size(); ++i) out(i) = ...` — misc/xset_operation.hpp:194-207: one index is given to
containers of any dimension; `out` starts uninitialised.  `fuel` counts the remaining iterations. -/
def searchLoop {α : Type} [LinearOrder α] [Inhabited α] (a : List α) (right : Bool) (v : Buf α) (st : List Int) :
    Nat → Nat → List (Option Nat) → Res (List (Option Nat))
  | 0, _, out => .ok out
  | n + 1, i, out =>
    let src := v.strd.index [(i : Int)]
    let dst := dataOffset st false [(i : Int)]
    if src < 0 ∨ src ≥ v.data.length ∨ dst < 0 ∨ dst ≥ out.length then .ub
    else searchLoop a right v st n (i + 1) (out.set dst.toNat (some (searchPoint a right (v.mem src))))

/-- `searchsorted(a, v, right)` — misc/xset_operation.hpp:187-211; the result is a row-major container of the shape
of `v`, given by its storage. -/
def searchsorted {α : Type} [LinearOrder α] [Inhabited α] (a : List α) (v : Buf α) (right : Bool) :
    Res (List (Option Nat)) :=
  searchLoop a right v (computeStrides .row_major .row_major v.shape).1 v.data.length 0
    (List.replicate v.data.length none)

/-- `digitize(data, bin_edges, right)` — misc/xhistogram.hpp:35-46. -/
def digitize {α : Type} [LinearOrder α] [Inhabited α] (v : Buf α) (edges : List α) (right : Bool) :
    Res (List (Option Nat)) :=
  searchsorted edges v right

end Xt
