import Verif.Spec.Reducer
/-!
# Specification: permuting, swapping, moving, flipping and rolling axes
-/

namespace Xt.Spec

/-- `perm` lists every axis of a `n`-dimensional expression once. -/
def ValidPerm (n : Nat) (perm : List Nat) : Prop :=
  perm.length = n ∧ perm.Nodup ∧ ∀ p ∈ perm, p < n

instance (n : Nat) (perm : List Nat) : Decidable (ValidPerm n perm) := by unfold ValidPerm; infer_instance

/-- Shape or index after permuting the axes: axis `k` of the result is axis `perm[k]` of the argument. -/
def permute (perm l : List Nat) : List Nat := perm.map fun p => l.getD p 0

/-- Inverse permutation. -/
def invPerm (n : Nat) (perm : List Nat) : List Nat := (List.range n).map fun i => perm.idxOf i

/-- Permutation that moves axis `src` to position `dest` and keeps the order of the others. -/
def movePerm (n src dest : Nat) : List Nat := ((List.range n).eraseIdx src).insertIdx dest src

/-- `l` with the entries `i` and `j` exchanged. -/
def swapEntries (l : List Nat) (i j : Nat) : List Nat := (l.set i (l.getD j 0)).set j (l.getD i 0)

/-- Index mirrored along one axis. -/
def flipIndex (sh : List Nat) (axis : Nat) (idx : List Nat) : List Nat :=
  idx.set axis (sh.getD axis 0 - 1 - idx.getD axis 0)

/-- Shape after `k` quarter turns in the plane of axes `a0`, `a1`. -/
def rotShape (a0 a1 : Nat) : Nat → List Nat → List Nat
  | 0, sh => sh
  | k + 1, sh => swapEntries (rotShape a0 a1 k sh) a0 a1

/-- Where the element at `q` of an array turned `k` times comes from: one quarter turn from `a0` towards `a1`
takes the element at `flipIndex _ a1 (swapEntries q a0 a1)` to `q`. -/
def rotAt (a0 a1 : Nat) : Nat → List Nat → List Nat → List Nat
  | 0, _, q => q
  | k + 1, sh, q => rotAt a0 a1 k sh (flipIndex (rotShape a0 a1 k sh) a1 (swapEntries q a0 a1))

/-- Index mirrored along every axis. -/
def mirror (sh idx : List Nat) : List Nat := List.zipWith (fun n i => n - 1 - i) sh idx

/-- Axis denoted by a possibly negative number. -/
def axisOf (dim : Nat) (axis : Int) : Nat := (if axis < 0 then axis + dim else axis).toNat

/-- Shape or index without the listed axes. -/
def without (axes l : List Nat) : List Nat := dropAxes axes none 0 l

/-- The entries of an index that stand on axes of extent other than 1. -/
def dropUnit : List Nat → List Nat → List Nat
  | n :: sh, i :: idx => if n = 1 then dropUnit sh idx else i :: dropUnit sh idx
  | _, _ => []

/-- Index moved `k` places along an axis, wrapping around. -/
def rollIndex (sh : List Nat) (axis : Nat) (k : Int) (idx : List Nat) : List Nat :=
  idx.set axis (((idx.getD axis 0 : Int) + k) % (sh.getD axis 0 : Int)).toNat

end Xt.Spec
