import Verif.Spec.Index
import Mathlib.Algebra.Order.Field.Rat
/-!
# Specification: ranges, placing arrays side by side, diagonals
-/

namespace Xt.Spec

/-- `x` lies in the half-open interval from `start` towards `stop`, for a step of the given sign. -/
def inRange {K : Type} [LT K] [LE K] [OfNat K 0] (start stop step x : K) : Prop :=
  (0 < step ∧ start ≤ x ∧ x < stop) ∨ (step < 0 ∧ x ≤ start ∧ stop < x)

/-- `n` is the number of points `start, start + step, …` of the half-open interval: the first `n` lie in it, the next
one does not. -/
def RangeCount (start stop step : Int) (n : Nat) : Prop :=
  (∀ k : Nat, k < n → inRange start stop step (start + step * k)) ∧ ¬ inRange start stop step (start + step * n)

/-- The same over the rationals. -/
def RangeCountQ (start stop step : Rat) (n : Nat) : Prop :=
  (∀ k : Nat, k < n → inRange start stop step (start + step * k)) ∧ ¬ inRange start stop step (start + step * n)

/-- The shapes agree on every axis but `axis`. -/
def AgreeOff (axis : Nat) (a b : List Nat) : Prop :=
  a.length = b.length ∧ ∀ i, i < a.length → i ≠ axis → a.getD i 0 = b.getD i 0

/-- Where the block of the `j`-th of several extents starts when they are laid out one after the other. -/
def blockStart (extents : List Nat) (j : Nat) : Nat := (extents.take j).sum

/-- Index moved by `d` along an axis. -/
def shiftAxis (axis d : Nat) (idx : List Nat) : List Nat := idx.set axis (idx.getD axis 0 + d)

/-- Entries of an index other than those on two axes. -/
def dropTwo (a b : Nat) (l : List Nat) : List Nat :=
  (l.zipIdx.filter fun p => p.2 ≠ a ∧ p.2 ≠ b).map Prod.fst

end Xt.Spec
