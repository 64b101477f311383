import Verif.Spec.Index
/-!
# Specification: chunked arrays
-/

namespace Xt.Spec

/-- Number of chunks along each axis: the extents divided by the chunk extents, rounded up. -/
def chunkGrid (sh cs : List Nat) : List Nat := List.zipWith (fun s c => (s + c - 1) / c) sh cs

/-- Chunk that holds an index. -/
def chunkOf (cs q : List Nat) : List Nat := List.zipWith (fun c i => i / c) cs q

/-- Position of an index inside its chunk. -/
def insideChunk (cs q : List Nat) : List Nat := List.zipWith (fun c i => i % c) cs q

/-- Value at `q` after a list of writes. -/
def lastWrite {α : Type} (init : List Nat → α) (h : List (List Nat × α)) (q : List Nat) : α :=
  h.foldl (fun v w => if w.1 = q then w.2 else v) (init q)

/-- Part of the array held by a chunk: per axis the half-open interval of coordinates, cut off at the end of the axis. -/
def chunkBox : List Nat → List Nat → List Nat → List (Nat × Nat)
  | s :: sh, c :: cs, k :: idx => (k * c, min ((k + 1) * c) s) :: chunkBox sh cs idx
  | _, _, _ => []

/-- `q` lies in the box given by a half-open interval per axis. -/
def InBox : List (Nat × Nat) → List Nat → Prop
  | (a, b) :: bs, i :: q => (a ≤ i ∧ i < b) ∧ InBox bs q
  | [], [] => True
  | _, _ => False

end Xt.Spec
