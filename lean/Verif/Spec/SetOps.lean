import Verif.Spec.Sort
/-!
# Specification: sets, insertion points, histograms
-/

namespace Xt.Spec

/-- `l` lists exactly the values satisfying `P`, in increasing order and each once. -/
def SortedSet {α : Type} [LinearOrder α] (P : α → Prop) (l : List α) : Prop :=
  l.Pairwise (· < ·) ∧ ∀ x, x ∈ l ↔ P x

/-- `k` is the leftmost place where `x` can be inserted into the sorted list `a`. -/
def LeftPoint {α : Type} [LinearOrder α] (a : List α) (x : α) (k : Nat) : Prop :=
  k ≤ a.length ∧ (∀ i y, i < k → a[i]? = some y → y < x) ∧ ∀ i y, k ≤ i → a[i]? = some y → x ≤ y

/-- `k` is the rightmost place where `x` can be inserted into the sorted list `a`. -/
def RightPoint {α : Type} [LinearOrder α] (a : List α) (x : α) (k : Nat) : Prop :=
  k ≤ a.length ∧ (∀ i y, i < k → a[i]? = some y → y ≤ x) ∧ ∀ i y, k ≤ i → a[i]? = some y → x < y

/-- `x` lies in bin `k` of the edges: bins are closed on the left, the last one on the right too. -/
def InBin (edges : List Rat) (k : Nat) (x : Rat) : Prop :=
  k + 1 < edges.length ∧ edges.getD k 0 ≤ x ∧
    (x < edges.getD (k + 1) 0 ∨ (k + 2 = edges.length ∧ x = edges.getD (k + 1) 0))

instance (edges : List Rat) (k : Nat) (x : Rat) : Decidable (InBin edges k x) := by unfold InBin; infer_instance

/-- Total weight of the data in bin `k`. -/
def binWeight (edges : List Rat) (k : Nat) (data : List (Rat × Rat)) : Rat :=
  ((data.filter fun d => decide (InBin edges k d.1)).map fun d => d.2).sum

/-- Total weight of the data between the first and the last edge. -/
def inRangeWeight (edges : List Rat) (data : List (Rat × Rat)) : Rat :=
  ((data.filter fun d => decide (edges.getD 0 0 ≤ d.1 ∧ d.1 ≤ edges.getD (edges.length - 1) 0)).map
    fun d => d.2).sum

end Xt.Spec
