import Verif.Model.Assign
import Verif.Model.StaticShape
/-!
# Model: the layouts that the types of an assignment have (core/xassign.hpp:250-280, core/xshape.hpp:234-270)

The flat loop is taken without a look at the strides if the types say that both sides are stored in one order.  For this purpose a
container with at most one axis, by its type, counts as stored in any order.
-/

namespace Xt

/-- `static_dimension<S>::value`, `none` for -1 — core/xshape.hpp:234-252. -/
def ShapeTy.staticDim : ShapeTy → Option Nat
  | .dyn => none
  | .arr n => some n
  | .fixed s => some s.length

/-- `select_layout<L, S>::value` — core/xshape.hpp:262-270. -/
def selectLayout (l : Layout) (t : ShapeTy) : Layout :=
  match t.staticDim with
  | none => l
  | some n => if n ≤ 1 ∧ l ≠ .dynamic then .any else l

/-- `linear_static_layout<E1, E2>()` from the layouts and the types of the shapes — core/xassign.hpp:254-266. -/
def linearStaticLayout (l1 : Layout) (t1 : ShapeTy) (l2 : Layout) (t2 : ShapeTy) : Bool :=
  Layout.computeLayout [selectLayout l1 t1, selectLayout l2 t2] != .dynamic

/-- `xassign_traits<E1, E2>` as far as it depends on layouts; the other flags as in `t` — core/xassign.hpp:268-274,
`contiguous_layout`: containers/xcontainer.hpp:105-106, core/xfunction.hpp:256-257. -/
def Traits.ofTypes (t : Traits) (l1 : Layout) (t1 : ShapeTy) (l2 : Layout) (t2 : ShapeTy) : Traits :=
  { t with contig1 := l1 != .dynamic, contig2 := l2 != .dynamic, linStatic := linearStaticLayout l1 t1 l2 t2 }

end Xt
