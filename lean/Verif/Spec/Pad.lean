import Verif.Spec.Index
/-!
# Specification: padding, tiling and repeating

Coordinates are relative to the original array: negative before it, from the extent on after it.
-/

namespace Xt.Spec

/-- Ways of padding other than with a constant. -/
inductive Extend
  | wrap | symmetric | reflect | edge
  deriving DecidableEq, Repr

/-- Coordinate of the original axis of extent `n` shown at the relative coordinate `j`. -/
def extendIndex (m : Extend) (n : Nat) (j : Int) : Int :=
  match m with
  | .wrap => j % n
  | .symmetric => if j < 0 then -1 - j else if j < n then j else 2 * n - 1 - j
  | .reflect => if j < 0 then -j else if j < n then j else 2 * (n - 1) - j
  | .edge => if j < 0 then 0 else if j < n then j else n - 1

/-- Paddings for which one reflection or repetition suffices. -/
def ExtendAllowed (m : Extend) (n nb ne : Nat) : Prop :=
  match m with
  | .wrap => nb ≤ n ∧ ne ≤ n
  | .symmetric => nb ≤ n ∧ ne ≤ n
  | .reflect => (nb = 0 ∨ nb < n) ∧ (ne = 0 ∨ ne < n)
  | .edge => (nb = 0 ∧ ne = 0) ∨ 0 < n

instance (m : Extend) (n nb ne : Nat) : Decidable (ExtendAllowed m n nb ne) := by
  cases m <;> (unfold ExtendAllowed; infer_instance)

/-- Extents after padding. -/
def padShape (sh : List Nat) (pads : List (Nat × Nat)) : List Nat :=
  List.zipWith (fun n (p : Nat × Nat) => p.1 + n + p.2) sh pads

/-- Index of the original array shown at the index `q` of the padded one. -/
def padSource (m : Extend) : List Nat → List (Nat × Nat) → List Nat → List Nat
  | n :: sh, p :: pads, i :: q => (extendIndex m n ((i : Int) - p.1)).toNat :: padSource m sh pads q
  | _, _, _ => []

/-- The index `q` of the padded array shows an element of the original one at the same relative place. -/
def Inside : List Nat → List (Nat × Nat) → List Nat → Prop
  | n :: sh, p :: pads, i :: q => p.1 ≤ i ∧ i < p.1 + n ∧ Inside sh pads q
  | _, _, _ => True

/-- Index relative to the original array. -/
def padShift : List (Nat × Nat) → List Nat → List Nat
  | p :: pads, i :: q => (i - p.1) :: padShift pads q
  | _, _ => []

/-- Index of the original array shown at the index `q` of the tiled one. -/
def tileSource (sh q : List Nat) : List Nat := List.zipWith (fun n i => i % n) sh q

/-- Positions of the original axis listed by `repeat`: each position `k` as often as `r` says, in order. -/
def repeatList (r : List Nat) : List Nat := (List.range r.length).flatMap fun k => List.replicate (r.getD k 0) k

end Xt.Spec
