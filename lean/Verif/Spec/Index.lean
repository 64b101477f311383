/-!
# Specification: multi-indices, ranks, traversal orders

Nothing here refers to the C++ code.  A *shape* is a list of extents, a *multi-index*
a list of coordinates.
-/

namespace Xt.Spec

/-- Number of elements of a shape: the product of its extents. -/
def numel : List Nat → Nat
  | [] => 1
  | s :: ss => s * numel ss

/-- `InBounds shape idx`: one coordinate per axis, each below its extent. -/
def InBounds : List Nat → List Nat → Prop
  | [], [] => True
  | s :: ss, i :: is => i < s ∧ InBounds ss is
  | _, _ => False

instance InBounds.dec : (sh idx : List Nat) → Decidable (InBounds sh idx)
  | [], [] => isTrue trivial
  | s :: ss, i :: is =>
    match Nat.decLt i s, InBounds.dec ss is with
    | isTrue h, isTrue h' => isTrue ⟨h, h'⟩
    | isFalse h, _ => isFalse fun x => h x.1
    | _, isFalse h => isFalse fun x => h x.2
  | [], _ :: _ => isFalse id
  | _ :: _, [] => isFalse id

/-- Rank of a multi-index when the last axis varies fastest. -/
def rowRank : List Nat → List Nat → Nat
  | _ :: ss, i :: is => i * numel ss + rowRank ss is
  | _, _ => 0

/-- Rank of a multi-index when the first axis varies fastest. -/
def colRank : List Nat → List Nat → Nat
  | s :: ss, i :: is => i + s * colRank ss is
  | _, _ => 0

/-- All in-bounds multi-indices, last axis fastest. -/
def rowIndices : List Nat → List (List Nat)
  | [] => [[]]
  | s :: ss => (List.range s).flatMap fun i => (rowIndices ss).map (i :: ·)

/-- All in-bounds multi-indices, first axis fastest. -/
def colIndices : List Nat → List (List Nat)
  | [] => [[]]
  | s :: ss => (colIndices ss).flatMap fun is => (List.range s).map (· :: is)

/-- Strict lexicographic order on multi-indices (first differing coordinate decides). -/
def lexLt : List Nat → List Nat → Prop
  | i :: is, j :: js => i < j ∨ (i = j ∧ lexLt is js)
  | _, _ => False

/-- Strict colexicographic order (last differing coordinate decides). -/
def colexLt : List Nat → List Nat → Prop
  | i :: is, j :: js => colexLt is js ∨ (is = js ∧ i < j)
  | _, _ => False

/-- Integer dot product of a stride vector and an index. -/
def dot : List Int → List Int → Int
  | s :: ss, i :: is => i * s + dot ss is
  | _, _ => 0

/-- Coordinates as integers. -/
def toInts (l : List Nat) : List Int := l.map Int.ofNat

end Xt.Spec
