import Verif.Spec.Manip
import Mathlib.Order.Defs.LinearOrder
import Mathlib.Data.List.Sort
/-!
# Specification: sorting, partitioning and searching along an axis
-/

namespace Xt.Spec

/-- The values of `g` along `axis` through the index `p`, first coordinate first. -/
def line {α : Type} (g : List Nat → α) (n axis : Nat) (p : List Nat) : List α :=
  (List.range n).map fun (t : Nat) => g (p.set axis t)

/-- `out` lists the values of `l` in nondecreasing order. -/
def SortedOf {α : Type} [LinearOrder α] (l out : List α) : Prop :=
  out.Perm l ∧ out.Pairwise (· ≤ ·)

/-- `idx` lists the positions of `l` so that the values found there do not decrease. -/
def ArgSortedOf {α : Type} [LinearOrder α] [Inhabited α] (l : List α) (idx : List Nat) : Prop :=
  idx.Perm (List.range l.length) ∧ (idx.map fun (i : Nat) => l.getD i default).Pairwise (· ≤ ·)

/-- `idx` lists the positions of `l` by value, equal values in order of position. -/
def StableArgSortedOf {α : Type} [LinearOrder α] [Inhabited α] (l : List α) (idx : List Nat) : Prop :=
  idx.Perm (List.range l.length) ∧
    idx.Pairwise fun i j => l.getD i default < l.getD j default ∨ (l.getD i default = l.getD j default ∧ i < j)

/-- Position `k` of `l` separates: nothing before is larger, nothing after is smaller. -/
def PivotAt {α : Type} [LinearOrder α] [Inhabited α] (l : List α) (k : Nat) : Prop :=
  (∀ i, i < k → l.getD i default ≤ l.getD k default) ∧
    ∀ j, k < j → j < l.length → l.getD k default ≤ l.getD j default

/-- `k` is the first position holding a smallest value of `l`. -/
def FirstLeast {α : Type} [LinearOrder α] [Inhabited α] (l : List α) (k : Nat) : Prop :=
  k < l.length ∧ (∀ j, j < l.length → l.getD k default ≤ l.getD j default) ∧
    ∀ j, j < k → l.getD k default < l.getD j default

/-- `k` is the first position holding a largest value of `l`. -/
def FirstGreatest {α : Type} [LinearOrder α] [Inhabited α] (l : List α) (k : Nat) : Prop :=
  k < l.length ∧ (∀ j, j < l.length → l.getD j default ≤ l.getD k default) ∧
    ∀ j, j < k → l.getD j default < l.getD k default

/-- Middle value of a list: `s` is the sorted list. -/
def Median (s : List Rat) : Rat :=
  if s.length % 2 = 1 then s.getD (s.length / 2) 0
  else (s.getD (s.length / 2 - 1) 0 + s.getD (s.length / 2) 0) / 2

end Xt.Spec
