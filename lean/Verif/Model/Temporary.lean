import Verif.Model.StaticShape
/-!
# Model: the containers that expressions are evaluated into (core/xexpression_traits.hpp, views/xview_utils.hpp)

`xt::eval`, `empty_like`, `full_like` and assignments that make a temporary choose the type of a container from the type of the
expression.  Only the shapes are modelled; values are those of C24 and C27.
-/

namespace Xt

/-- `xtype_for_shape`: an `xarray`, an `xtensor` with so many axes, an `xtensor_fixed`; a container is given by the type of its shape —
core/xexpression_traits.hpp:99-130. -/
def xtypeForShape : ShapeTy → ShapeTy
  | .dyn => .dyn
  | .arr n => .arr n
  | .fixed s => .fixed s

/-- `view_temporary_type<E, SL...>`; an `xtensor` with a negative number of axes is not a type, here it has none —
views/xview_utils.hpp:64-92. -/
def viewTemporaryTy (t : ShapeTy) (S : List Sl) : ShapeTy :=
  match t with
  | .arr n => .arr (n + newaxisCount S - integralCount S)
  | _ => .dyn

/-- `temporary_type_t<E>`: a view has its own, functions, reductions and broadcasts get one for their shape —
core/xexpression_traits.hpp:132-160, views/xview.hpp:304. -/
def TyExpr.temporary : TyExpr → Option ShapeTy
  | .view e us =>
    match e.run with
    | none => none
    | some r => match makeView r.2 us with
      | .ok S => some (viewTemporaryTy r.1 S)
      | _ => none
  | e => e.run.map fun r => xtypeForShape r.1

/-- The shape of a new container of type `ct` after `resize(s)`: an `xtensor` copies the extents into its array, which is undefined or
incomplete unless there are as many; an `xtensor_fixed` only asserts — containers/xcontainer.hpp:998-1021,
containers/xfixed.hpp:686-692. -/
def containerResized (ct : ShapeTy) (s : List Nat) : Res (List Nat) :=
  match ct with
  | .dyn => .ok s
  | .arr n => if s.length = n then .ok s else .ub
  | .fixed s' => .ok s'

/-- The shape of `xt::eval(e)`, of `empty_like(e)` and of the temporary of `e` — core/xeval.hpp:52-57, generators/xbuilder.hpp:120-143.
`none`: there is no expression. -/
def TyExpr.evalShape (e : TyExpr) : Option (Res (List Nat)) :=
  match e.run, e.temporary with
  | some r, some ct => some (containerResized ct r.2)
  | _, _ => none

/-- The shape of the temporary that the assignment `e = rhs` to a view makes for an expression of shape `s` —
core/xsemantic.hpp:620-640, 773-793. -/
def TyExpr.tempShape (e : TyExpr) (s : List Nat) : Option (Res (List Nat)) :=
  e.temporary.map fun ct => containerResized ct s

end Xt
