/-!
# Outcomes of modelled C++ calls
-/

namespace Xt

/-- Result of a C++ call: a value, a thrown exception, or undefined behaviour
(out-of-buffer access, integer division by zero, ...). -/
inductive Res (α : Type u)
  | ok (a : α)
  | throws
  | ub
  deriving DecidableEq, Repr

namespace Res
variable {α : Type u} {β : Type v}

/-- Sequencing: exceptions and undefined behaviour propagate. -/
def bind (r : Res α) (f : α → Res β) : Res β :=
  match r with
  | ok a => f a
  | throws => .throws
  | ub => .ub

/-- Post-process a value. -/
def map (f : α → β) (r : Res α) : Res β := r.bind fun a => .ok (f a)

@[simp] theorem bind_ok (a : α) (f : α → Res β) : (Res.ok a).bind f = f a := rfl
@[simp] theorem bind_throws (f : α → Res β) : (Res.throws : Res α).bind f = .throws := rfl
@[simp] theorem bind_ub (f : α → Res β) : (Res.ub : Res α).bind f = .ub := rfl
@[simp] theorem map_ok (f : α → β) (a : α) : (Res.ok a).map f = .ok (f a) := rfl
@[simp] theorem map_throws (f : α → β) : (Res.throws : Res α).map f = .throws := rfl
@[simp] theorem map_ub (f : α → β) : (Res.ub : Res α).map f = .ub := rfl

end Res
end Xt
