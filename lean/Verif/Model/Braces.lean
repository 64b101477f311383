import Verif.Model.DynamicView
import Verif.Spec.Braces
/-!
# Construction from nested initializer lists

Source: containers/xarray.hpp, containers/xtensor.hpp, containers/xfixed.hpp, core/xshape.hpp,
utils/xutils.hpp (under /repo/include/xtensor).  `Braces` (what the user writes) is taken from the
specification.  `xarray` has constructors for one to five levels; the model has all levels.
Elements of trivial type are left without value by `resize`, here `none`.
-/

namespace Xt
open Spec

/-- `initializer_shape_impl<I>::value(t)` — core/xshape.hpp:170-189: the size of the first list at
level `I`, 0 if a list on the way is empty. -/
def initShapeAt {α : Type} : (n : Nat) → Nat → Braces α n → Nat
  | 0, _, _ => 0
  | _ + 1, 0, (t : List _) => t.length
  | n + 1, i + 1, (t : List (Braces α n)) => match t with
    | [] => 0
    | x :: _ => initShapeAt n i x

/-- `xt::shape<R>(t)` — core/xshape.hpp:191-207. -/
def initShape {α : Type} (n : Nat) (t : Braces α n) : List Nat :=
  (List.range n).map fun (i : Nat) => initShapeAt n i t

/-- The values `nested_copy(iter, t)` writes, in order — utils/xutils.hpp:335-348. -/
def nestedCopy {α : Type} : (n : Nat) → Braces α n → List α
  | 0, (x : α) => [x]
  | n + 1, (l : List (Braces α n)) => (l.map (nestedCopy n)).flatten

/-- Positions in the storage that `m_storage.begin()` (`L` row-major) or `begin<row_major>()` runs
through for an array of shape `sh` — containers/xarray.hpp:397, containers/xtensor.hpp:431,
containers/xfixed.hpp:651; the strides by `resize`; iteration as in C22. -/
def bracePositions (L : Layout) (sh : List Nat) : List Int :=
  if L = .row_major then (List.range (computeSize sh)).map fun (i : Nat) => (i : Int)
  else (rowIndices sh).map fun (idx : List Nat) => dataOffset (computeStrides L L sh).1 false (toInts idx)

/-- Filling the storage of an array of shape `sh` from braces: `iter` runs past the end when there are
more values than elements. -/
def fillBraces {α : Type} (L : Layout) (sh : List Nat) (n : Nat) (t : Braces α n) :
    Res (List (Option α)) :=
  if (bracePositions L sh).length < (nestedCopy n t).length then .ub
  else writeAll (List.replicate (computeSize sh) none)
    ((bracePositions L sh).zip ((nestedCopy n t).map some))

/-- `xarray_container(nested_initializer_list_t<value_type, n> t)` and the same of `xtensor_container` —
containers/xarray.hpp:390-450, containers/xtensor.hpp:424-432: shape and storage. -/
def arrayOfBraces {α : Type} (L : Layout) (n : Nat) (t : Braces α n) :
    Res (List Nat × List (Option α)) :=
  (fillBraces L (initShape n t) n t).map fun (b : List (Option α)) => (initShape n t, b)

/-- `check_initializer_list_shape<X>::run(t, shape)`, the list holding the extents from axis
`shape.size() - X` on — containers/xfixed.hpp:597-622.  The loop evaluates the recursive call only
while `result` holds, hence only within `t`. -/
def checkInitShape {α : Type} : (n : Nat) → Braces α n → List Nat → Bool
  | 0, _, _ => true
  | n + 1, (t : List (Braces α n)), sh => match sh with
    | [] => false
    | k :: sh => (k == t.length) && t.all fun (x : Braces α n) => checkInitShape n x sh

/-- `xfixed_container(nested_initializer_list_t<value_type, N> t)` — containers/xfixed.hpp:641-652 — for
the static shape `sh`; `XTENSOR_ASSERT_MSG` throws when assertions are enabled and is empty otherwise. -/
def fixedOfBraces {α : Type} (asserts : Bool) (L : Layout) (sh : List Nat)
    (t : Braces α sh.length) : Res (List (Option α)) :=
  if asserts = true ∧ checkInitShape sh.length t sh = false then .throws
  else fillBraces L sh sh.length t

end Xt
