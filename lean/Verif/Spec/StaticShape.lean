import Verif.Spec.Broadcast
import Verif.Spec.Reducer
import Verif.Spec.View
import Verif.Model.StaticShape
/-!
# Specification: the shape of an expression, whatever the compiler knows about it

Only the syntax of expressions is taken from the model; the types in it are not looked at.
-/

namespace Xt.Spec

mutual
/-- The expression has the shape `s`: operands are broadcast by NumPy's rule, a reduction removes its axes (or sets them to 1), a view
selects, a broadcast combines the shape with the one given, which has at least as many axes. -/
def HasShape : TyExpr → List Nat → Prop
  | .leaf _ sh, s => s = sh
  | .fn args, s => ∃ ss, HasShapes args ss ∧ IsBroadcast ss s
  | .reduce e _ axes keep, s => ∃ s0, HasShape e s0 ∧ GoodAxes s0.length axes ∧ s = redShape s0 axes keep
  | .view e us, s => ∃ s0, HasShape e s0 ∧ s = selShape s0 us
  | .bcast e _ sh, s => ∃ s0, HasShape e s0 ∧ s0.length ≤ sh.length ∧ IsBroadcast [sh, s0] s
/-- The operands have the shapes `ss`. -/
def HasShapes : List TyExpr → List (List Nat) → Prop
  | [], ss => ss = []
  | e :: es, ss => ∃ s ss', HasShape e s ∧ HasShapes es ss' ∧ ss = s :: ss'
end

/-- What the type says about a shape (or list of axes) is true. -/
def TyFits : ShapeTy → List Nat → Prop
  | .dyn, _ => True
  | .arr n, s => s.length = n
  | .fixed s', s => s = s'

instance (t : ShapeTy) (s : List Nat) : Decidable (TyFits t s) := by
  cases t <;> unfold TyFits <;> infer_instance

end Xt.Spec
