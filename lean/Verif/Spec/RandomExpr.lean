import Verif.Model.RandomExpr
import Verif.Spec.Expr
import Verif.Spec.Program
/-!
# Specification: what random expressions draw
-/

namespace Xt.Spec

variable {σ β : Type}

/-- The random operands, from left to right. -/
def randomLeaves : REx σ β → List (σ → β × σ)
  | .read _ _ => []
  | .rnd _ draw => [draw]
  | .un _ e => randomLeaves e
  | .bin _ a b => randomLeaves a ++ randomLeaves b
  | .bcast e _ => randomLeaves e

/-- The value of an element when the random operands, from left to right, have the values `vs`. -/
def valueGiven [Inhabited β] : REx σ β → List β → List Nat → β
  | .read s g, _, idx => g (bcIndex s idx)
  | .rnd _ _, vs, _ => vs.getD 0 default
  | .un f e, vs, idx => f (valueGiven e vs idx)
  | .bin f a b, vs, idx =>
    f (valueGiven a (vs.take (randomLeaves a).length) idx) (valueGiven b (vs.drop (randomLeaves a).length) idx)
  | .bcast e _, vs, idx => valueGiven e vs idx

/-- A sequence of draws, one after the other. -/
def drawAll : List (σ → β × σ) → σ → List β × σ
  | [], st => ([], st)
  | d :: ds, st => ((d st).1 :: (drawAll ds (d st).2).1, (drawAll ds (d st).2).2)

/-- The draws of the operands in the order `o`. -/
def drawsIn [Inhabited β] (e : REx σ β) (o : List Nat) : List (σ → β × σ) :=
  o.map fun l => (randomLeaves e).getD l fun st => (default, st)

/-- `vs`, in order of the operands, are the results of drawing each random operand once, in the order `o`. -/
structure DrawnOnce [Inhabited β] (e : REx σ β) (st : σ) (o : List Nat) (vs : List β) (st' : σ) : Prop where
  length : vs.length = (randomLeaves e).length
  order : o.Perm (List.range (randomLeaves e).length)
  draws : drawAll (drawsIn e o) st = (o.map fun l => vs.getD l default, st')

/-- Draws of several elements, each of which draws every random operand once. -/
inductive DrawnEach [Inhabited β] (e : REx σ β) : σ → List (List β) → σ → Prop
  | nil (st : σ) : DrawnEach e st [] st
  | cons {st st' st'' : σ} {o : List Nat} {vs : List β} {vss : List (List β)} (h : DrawnOnce e st o vs st')
      (t : DrawnEach e st' vss st'') : DrawnEach e st (vs :: vss) st''

/-- The shapes that are broadcast together. -/
def operandShapes : REx σ β → List (List Nat)
  | .read s _ => [s]
  | .rnd s _ => [s]
  | .un _ e => operandShapes e
  | .bin _ a b => operandShapes a ++ operandShapes b
  | .bcast _ s => [s]

/-- No extent is the largest value of `std::size_t`. -/
def SmallOperands : REx σ β → Prop
  | .read s _ => szMax ∉ s
  | .rnd s _ => szMax ∉ s
  | .un _ e => SmallOperands e
  | .bin _ a b => SmallOperands a ∧ SmallOperands b
  | .bcast e s => szMax ∉ s ∧ SmallOperands e

/-- The expression is a random generator by itself. -/
def isGenerator : REx σ β → Prop
  | .rnd _ _ => True
  | _ => False

end Xt.Spec
