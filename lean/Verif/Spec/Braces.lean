/-!
# Specification: nested braces

`Braces α n` is what a program writes as `n` levels of braces around values of type `α`.  Nothing here
refers to the C++ code.
-/

namespace Xt.Spec

/-- `n` levels of braces. -/
def Braces (α : Type) : Nat → Type
  | 0 => α
  | n + 1 => List (Braces α n)

/-- All braces of the same level hold the same number of entries, given by `sh`. -/
def Rect {α : Type} : (sh : List Nat) → Braces α sh.length → Prop
  | [], _ => True
  | k :: sh, (l : List (Braces α sh.length)) => l.length = k ∧ ∀ x ∈ l, Rect sh x

/-- The value written at a multi-index. -/
def bget {α : Type} : (n : Nat) → Braces α n → List Nat → Option α
  | 0, (x : α), [] => some x
  | n + 1, (l : List (Braces α n)), i :: idx => match l[i]? with
    | some t => bget n t idx
    | none => none
  | _, _, _ => none

/-- The values in reading order. -/
def bvalues {α : Type} : (n : Nat) → Braces α n → List α
  | 0, (x : α) => [x]
  | n + 1, (l : List (Braces α n)) => l.flatMap (bvalues n)

end Xt.Spec
