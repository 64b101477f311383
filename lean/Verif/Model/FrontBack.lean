import Verif.Model.ViewStepper
/-!
# Model of `front()` and `back()` of expressions (`core/xaccessible.hpp`)

Both are defined on the iterators of the default traversal, which is row-major (`core/xtensor_config.hpp:101-103`).
-/

namespace Xt

variable {α : Type}

/-- `front()`: `*begin()` — core/xaccessible.hpp:225-230, 323-328; `sh` is the shape of `e`. -/
def Ex.accFront (e : Ex α) (sh : List Nat) : α := e.deref (e.iterBegin sh).st

/-- `back()`: `*std::prev(end())` — core/xaccessible.hpp:232-239, 330-337. -/
def Ex.accBack (e : Ex α) (sh : List Nat) : α :=
  e.deref (XIter.dec (e.ops sh.length) .row_major sh (e.iterEnd .row_major sh)).st

/-- `front()` of `v = view(e, ...)` with the bound slices `S`, for views with a stepper of their own (views/xview.hpp:1963-1993);
`sh` is the shape of `v`.  `none`: undefined. -/
def viewFront (e : Ex α) (ush : List Nat) (S : List Sl) (sh : List Nat) : Option α :=
  (XIter.mkBegin (viewBegin (e.ops ush.length) ush S e.stBegin) sh).st.map fun p => e.deref p.1

/-- `back()` of such a view. -/
def viewBack (e : Ex α) (ush : List Nat) (S : List Sl) (sh : List Nat) : Option α :=
  let sub := e.ops ush.length
  let ops := viewOps sub ush S (sh.length - viewDim ush S)
  (XIter.dec ops .row_major sh (XIter.mkEnd (viewEnd sub ush S .row_major (e.stEnd ush.length .row_major)) .row_major sh)).st.map
    fun p => e.deref p.1

/-- `front()` and `back()` of a container with static row-major layout: the first and the last position of its storage, as
`begin()` and `end()` are those of the storage — core/xiterable.hpp:947-980, containers/xcontainer.hpp:769-793. -/
def linearFront (_size : Nat) : Int := 0
def linearBack (size : Nat) : Int := (size : Int) - 1

end Xt
