import Verif.Spec.Index
import Verif.Spec.Slice
import Verif.Model.Slice
/-!
# Specification: what a list of slices selects from a shape

`USlice` (the syntax of slices as the user writes them) is the only thing taken from the model.
-/

namespace Xt.Spec

/-- Positions selected on an axis of length `n` by one slice (not a newaxis). -/
def axisSel (n : Nat) : USlice → List Int
  | .int i => [pyIndex n i]
  | .range a b s => pySlice n a b (s.getD 1)
  | .keep l => l.map (pyIndex n)
  | .drop l => ((List.range n).map Int.ofNat).filter fun p => !(l.map (pyIndex n)).contains p
  | _ => (List.range n).map Int.ofNat

/-- Shape of the selection: one axis per range-like slice, with the number of selected positions;
extent 1 for a newaxis; no axis for an integer; trailing axes unchanged. -/
def selShape : List Nat → List USlice → List Nat
  | sh, [] => sh
  | sh, .newaxis :: us => 1 :: selShape sh us
  | _ :: sh, .int _ :: us => selShape sh us
  | n :: sh, u :: us => (axisSel n u).length :: selShape sh us
  | [], _ :: _ => []

/-- Parent index denoted by the index `idx` of the selection. -/
def selIndex : List Nat → List USlice → List Nat → List Int
  | _, [], idx => toInts idx
  | sh, .newaxis :: us, _ :: idx => selIndex sh us idx
  | n :: sh, .int i :: us, idx => pyIndex n i :: selIndex sh us idx
  | n :: sh, u :: us, i :: idx => (axisSel n u).getD i 0 :: selIndex sh us idx
  | _, _, _ => []

/-- A slice that can be bound to an axis of length `n` and means something there. -/
def SliceValid (n : Nat) : USlice → Prop
  | .int i => -(n : Int) ≤ i ∧ i < n
  | .range a b (some k) => k ≠ 0 ∧ ¬ (0 < k ∧ pyStop n k b + k ≤ pyStart n k a) ∧
      ¬ (k < 0 ∧ pyStart n k a ≤ pyStop n k b + k)
  | .range _ _ none => True
  | .all => True
  | .keep l => ∀ i ∈ l, -(n : Int) ≤ i ∧ i < n
  | .drop l => (l.map (pyIndex n)).Pairwise (· < ·) ∧ ∀ i ∈ l, -(n : Int) ≤ i ∧ i < n
  | .newaxis => True
  | .ellipsis => False

/-- Every slice other than newaxis has its own axis of the shape and is valid on it. -/
def SlicesValid : List Nat → List USlice → Prop
  | _, [] => True
  | sh, .newaxis :: us => SlicesValid sh us
  | n :: sh, u :: us => SliceValid n u ∧ SlicesValid sh us
  | [], _ :: _ => False

instance SliceValid.dec (n : Nat) : (u : USlice) → Decidable (SliceValid n u)
  | .int _ => inferInstanceAs (Decidable (_ ∧ _))
  | .range _ _ (some _) => inferInstanceAs (Decidable (_ ∧ _))
  | .range _ _ none => isTrue trivial
  | .all => isTrue trivial
  | .keep l => inferInstanceAs (Decidable (∀ i ∈ l, _))
  | .drop _ => inferInstanceAs (Decidable (_ ∧ _))
  | .newaxis => isTrue trivial
  | .ellipsis => isFalse id

instance SlicesValid.dec : (sh : List Nat) → (us : List USlice) → Decidable (SlicesValid sh us)
  | [], [] => isTrue trivial
  | _ :: _, [] => isTrue trivial
  | [], .newaxis :: us => SlicesValid.dec [] us
  | n :: sh, .newaxis :: us => SlicesValid.dec (n :: sh) us
  | n :: sh, .int i :: us => @instDecidableAnd _ _ (SliceValid.dec n (.int i)) (SlicesValid.dec sh us)
  | n :: sh, .range a b c :: us =>
    @instDecidableAnd _ _ (SliceValid.dec n (.range a b c)) (SlicesValid.dec sh us)
  | n :: sh, .all :: us => @instDecidableAnd _ _ (SliceValid.dec n .all) (SlicesValid.dec sh us)
  | n :: sh, .keep l :: us => @instDecidableAnd _ _ (SliceValid.dec n (.keep l)) (SlicesValid.dec sh us)
  | n :: sh, .drop l :: us => @instDecidableAnd _ _ (SliceValid.dec n (.drop l)) (SlicesValid.dec sh us)
  | n :: sh, .ellipsis :: us =>
    @instDecidableAnd _ _ (SliceValid.dec n .ellipsis) (SlicesValid.dec sh us)
  | [], .int _ :: _ => isFalse id
  | [], .range _ _ _ :: _ => isFalse id
  | [], .all :: _ => isFalse id
  | [], .keep _ :: _ => isFalse id
  | [], .drop _ :: _ => isFalse id
  | [], .ellipsis :: _ => isFalse id

/-- Whether a slice is an integer. -/
def IsInt (u : USlice) : Prop := ∃ i, u = .int i

/-- No integer slice stands between a newaxis and a later slice that keeps an axis. -/
def NoIntAfterNewaxis (us : List USlice) : Prop :=
  ∀ (p q r : Nat) (s t : USlice), p < q → q < r → us[p]? = some .newaxis → us[q]? = some s →
    us[r]? = some t → IsInt s → IsInt t ∨ t = .newaxis

/-- A second newaxis may only come after slices for all `dim` axes of the parent. -/
def SecondNewaxisTrailing (dim : Nat) (us : List USlice) : Prop :=
  ∀ (p q : Nat), p < q → us[p]? = some .newaxis → us[q]? = some .newaxis →
    ((us.take q).filter (fun u => u ≠ .newaxis)).length = dim

end Xt.Spec
