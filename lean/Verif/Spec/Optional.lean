/-!
# Specification: arithmetic with missing values
-/

namespace Xt.Spec

/-- An expression over operands that may be missing; an operation may be undefined for some arguments. -/
inductive OptTerm (α : Type)
  | operand (v : Option α)
  | op (f : List α → Option α) (args : List (OptTerm α))

variable {α : Type}

mutual
/-- All operands. -/
def OptTerm.operands : OptTerm α → List (Option α)
  | .operand v => [v]
  | .op _ args => OptTerm.operandsL args
/-- Of several terms. -/
def OptTerm.operandsL : List (OptTerm α) → List (Option α)
  | [] => []
  | t :: ts => OptTerm.operands t ++ OptTerm.operandsL ts
end

mutual
/-- The plain operation on the values of the operands. -/
def OptTerm.plain : OptTerm α → Option α
  | .operand v => v
  | .op f args => (OptTerm.plains args).bind f
/-- Of several terms. -/
def OptTerm.plains : List (OptTerm α) → Option (List α)
  | [] => some []
  | t :: ts => (OptTerm.plain t).bind fun v => (OptTerm.plains ts).map (v :: ·)
end

/-- What the property asks: present exactly when every operand is, and then the value of the plain operation. -/
def IsOptResult (t : OptTerm α) (r : Option α) : Prop :=
  (r ≠ none ↔ ∀ v ∈ t.operands, v ≠ none) ∧ ∀ v, r = some v → t.plain = some v

end Xt.Spec
