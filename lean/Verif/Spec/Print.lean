import Verif.Spec.Index
/-!
# Specification: printed arrays

What a reader expects of a printed array: the nested literal of the array, in which blanks and line ends are only found
before the parts, and in which the middle of a long axis may be replaced by an ellipsis.
-/

namespace Xt.Spec

/-- What is shown of an axis of extent `n` when at most `lim` items are shown at either end (0: no limit); `none` is the
ellipsis. -/
def shown (n lim : Nat) : List (Option Nat) :=
  if lim = 0 ∨ n ≤ 2 * lim then (List.range n).map some
  else (List.range lim).map some ++ [none] ++ (List.range' (n - lim) lim).map some

/-- The indices that are shown of an array, in order. -/
def shownIndices (lim : Nat) : List Nat → List (List Nat)
  | [] => [[]]
  | n :: sh => ((shown n lim).filterMap id).flatMap fun i => (shownIndices lim sh).map (i :: ·)

/-- Blanks and line ends. -/
def AllBlank (t : List Nat) : Prop := ∀ c ∈ t, c = 32 ∨ c = 10

/-- Parts separated by commas, with blanks before each part. -/
def Separated {ρ : Type} (part : ρ → List Nat → Prop) : List ρ → List Nat → Prop
  | [], _ => False
  | [r], t => ∃ ws p, t = ws ++ p ∧ AllBlank ws ∧ part r p
  | r :: r' :: rs, t => ∃ ws p t', t = ws ++ p ++ [44] ++ t' ∧ AllBlank ws ∧ part r p ∧ Separated part (r' :: rs) t'

/-- A part of an axis: an ellipsis, or the text of an item. -/
def IsPart (item : Nat → List Nat → Prop) (r : Option Nat) (p : List Nat) : Prop :=
  match r with
  | none => p = [46, 46, 46]
  | some i => item i p

/-- `t` is the literal of the array of texts `text`, below the index `pre`. -/
def IsLiteral (lim : Nat) (text : List Nat → List Nat) : List Nat → List Nat → List Nat → Prop
  | [], pre, t => t = text pre
  | n :: sh, pre, t => ∃ b, t = [123] ++ b ++ [125] ∧
      Separated (IsPart fun i p => IsLiteral lim text sh (pre ++ [i]) p) (shown n lim) b

/-- No line of the text is longer than `w`. -/
def LinesWithin (w : Nat) (t : List Nat) : Prop := ∀ a b c, t = a ++ b ++ c → 10 ∉ b → b.length ≤ w

/-- The option in force: the one given for this output, if one was given, and the global one otherwise. -/
def optionInForce (given : Option Int) (glob : Int) : Int := given.getD glob

end Xt.Spec
