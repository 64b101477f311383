import Verif.Spec.Index
/-!
# Specification: arrays as JSON documents
-/

namespace Xt.Spec

/-- A JSON document whose numbers have values in `α`; other kinds of values are `null`. -/
inductive Jv (α : Type)
  | null
  | val (a : α)
  | arr (l : List (Jv α))

/-- The document of an array: a number without axes, otherwise the list of the documents of its slices along the first
axis. -/
def nested {α : Type} : List Nat → (List Nat → α) → Jv α
  | [], f => .val (f [])
  | n :: sh, f => .arr ((List.range n).map fun i => nested sh fun idx => f (i :: idx))

end Xt.Spec
