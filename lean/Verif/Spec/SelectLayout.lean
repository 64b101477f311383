import Verif.Model.SelectLayout
import Verif.Spec.Assign
import Verif.Spec.StaticShape
/-!
# Specification for C105: types of expressions

An array whose type has a layout is stored in that order; one whose type has a number of axes has as many.
-/

namespace Xt.Spec

variable {α : Type}

/-- The array can have a type with this layout and this shape type.  No array has layout `any`
(containers/xcontainer.hpp:115). -/
structure ArrTyped (c : StridedArr) (l : Layout) (t : ShapeTy) : Prop where
  named : l ≠ .any
  stored : l ≠ .dynamic → Contig l c
  axes : ∀ n, t.staticDim = some n → c.shape.length = n

mutual
/-- The expression can have a type with this layout and this shape type: containers and contiguous views; scalars
(containers/xscalar.hpp:145); generators and broadcasts, whose layout is dynamic (generators/xgenerator.hpp:140,
views/xbroadcast.hpp:189); functions (core/xfunction.hpp:140, 256). -/
def HasType : Ex α → Layout → ShapeTy → Prop
  | .arr c _, l, t => ArrTyped c l t
  | .scalar _, l, t => l = .any ∧ t = .arr 0
  | .gen _ _, l, _ => l = .dynamic
  | .bcast _ _, l, _ => l = .dynamic
  | .fn _ args, l, t => ∃ ts : List (Layout × ShapeTy), HaveTypes args ts ∧ l = Layout.computeLayout (ts.map Prod.fst) ∧
      promoteTy (ts.map Prod.snd) = some t
/-- The operands of a function have these types. -/
def HaveTypes : Args α → List (Layout × ShapeTy) → Prop
  | .nil, ts => ts = []
  | .cons e es, ts => ∃ l t ts', ts = (l, t) :: ts' ∧ HasType e l t ∧ HaveTypes es ts'
end

end Xt.Spec
