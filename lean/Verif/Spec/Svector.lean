/-!
# Specification: sequences (C51)

What the operations of a resizable sequence do, on plain lists, and histories of them over a collection of sequences.
An operation that is not allowed (removing from an empty sequence, a position past the end, a sequence that does not
exist) has no result.  Nothing here knows about capacities or blocks of memory.
-/

namespace Xt.Spec

/-- One operation on a collection of sequences; `i` and `j` say which. -/
inductive SeqOp (α : Type)
  /-- Append an element. -/
  | push (i : Nat) (x : α)
  /-- Remove the last element. -/
  | pop (i : Nat)
  /-- Change the size, keeping what fits and adding default elements. -/
  | resize (i n : Nat)
  /-- Ask for room. -/
  | reserve (i n : Nat)
  /-- Remove everything. -/
  | clear (i : Nat)
  /-- Become `n` copies of an element. -/
  | assignFill (i n : Nat) (x : α)
  /-- Become the given elements. -/
  | assignList (i : Nat) (l : List α)
  /-- Become a copy of another sequence, or of itself. -/
  | copy (i j : Nat)
  /-- Exchange two sequences. -/
  | swap (i j : Nat)
  /-- Insert an element before position `p`. -/
  | insert (i p : Nat) (x : α)
  /-- Insert elements before position `p`. -/
  | insertList (i p : Nat) (l : List α)
  /-- Remove the element at position `p`. -/
  | erase (i p : Nat)
  /-- Remove the elements from position `a` up to, not including, position `b`. -/
  | eraseRange (i a b : Nat)
  /-- Write the element at position `p`. -/
  | set (i p : Nat) (x : α)

/-- Change sequence `i` by `f`, if there is one and `f` has a result. -/
def onSeq {α : Type} (ls : List (List α)) (i : Nat) (f : List α → Option (List α)) : Option (List (List α)) :=
  (ls[i]?).bind fun l => (f l).map fun l' => ls.set i l'

/-- What an operation does; `z` is the default element. -/
def seqStep {α : Type} (z : α) (ls : List (List α)) : SeqOp α → Option (List (List α))
  | .push i x => onSeq ls i fun l => some (l ++ [x])
  | .pop i => onSeq ls i fun l => if l = [] then none else some l.dropLast
  | .resize i n => onSeq ls i fun l => some (l.take n ++ List.replicate (n - l.length) z)
  | .reserve i _ => onSeq ls i some
  | .clear i => onSeq ls i fun _ => some []
  | .assignFill i n x => onSeq ls i fun _ => some (List.replicate n x)
  | .assignList i l' => onSeq ls i fun _ => some l'
  | .copy i j => onSeq ls i fun _ => ls[j]?
  | .swap i j => (ls[i]?).bind fun a => (ls[j]?).map fun b => (ls.set i b).set j a
  | .insert i p x => onSeq ls i fun l => if p ≤ l.length then some (l.take p ++ x :: l.drop p) else none
  | .insertList i p l' => onSeq ls i fun l => if p ≤ l.length then some (l.take p ++ l' ++ l.drop p) else none
  | .erase i p => onSeq ls i fun l => if p < l.length then some (l.take p ++ l.drop (p + 1)) else none
  | .eraseRange i a b => onSeq ls i fun l => if a ≤ b ∧ b ≤ l.length then some (l.take a ++ l.drop b) else none
  | .set i p x => onSeq ls i fun l => if p < l.length then some (l.set p x) else none

/-- A history of operations. -/
def seqRun {α : Type} (z : α) : List (List α) → List (SeqOp α) → Option (List (List α))
  | ls, [] => some ls
  | ls, op :: ops => (seqStep z ls op).bind fun ls' => seqRun z ls' ops

end Xt.Spec
