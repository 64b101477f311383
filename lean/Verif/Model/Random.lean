import Verif.Model.Assign
import Verif.Spec.Index
import Verif.Model.SetOps
import Mathlib.Algebra.Order.Ring.Rat
/-!
# Model of the random permutations and samples of `generators/xrandom.hpp`

The draws of the engine are parameters: `d i` is what the distribution with bounds `0` and `i` returns.  Weights are
rational numbers.
-/

namespace Xt

open Spec

variable {α β : Type}

/-- `swap(first[i], first[j])`. -/
def swapAt (l : List α) (i j : Nat) : Res (List α) :=
  match l[i]?, l[j]? with
  | some a, some b => .ok ((l.set i b).set j a)
  | _, _ => .ub

/-- The loop of `shuffle` on one axis — generators/xrandom.hpp:799-805. -/
def shuffleLoop (d : Nat → Nat) : Nat → List α → Res (List α)
  | 0, l => .ok l
  | i + 1, l => (swapAt l (i + 1) (d (i + 1))).bind (shuffleLoop d i)

/-- `shuffle(e, engine)` on one axis — generators/xrandom.hpp:793-806.  Without elements the first index is the greatest
    word, which is outside. -/
def shuffleList (d : Nat → Nat) (l : List α) : Res (List α) := if l.length = 0 then .ub else shuffleLoop d (l.length - 1) l

/-- `permutation(n, engine)` — generators/xrandom.hpp:837-843. -/
def randomPermutation (d : Nat → Nat) (n : Nat) : Res (List Nat) := shuffleList d (List.range n)

/-- `view(de, i)`. -/
def rowView (a : StridedArr) (i : Nat) : StridedArr :=
  StridedArr.mk' a.shape.tail a.strides.tail (a.off + (i : Int) * a.strides.getD 0 0)

/-- `buf = view(de, j)`: the elements. -/
def readView (v : StridedArr) (m : Mem β) : List β :=
  (rowIndices v.shape).map fun idx => m (v.off + dot v.strides (toInts idx))

/-- `view(de, i) = buf`, element by element; C24 shows that the order does not matter. -/
def writeView (v : StridedArr) (vs : List β) (m : Mem β) : Mem β :=
  ((rowIndices v.shape).zip vs).foldl
    (fun (m : Mem β) (p : List Nat × β) => m.set (v.off + dot v.strides (toInts p.1)) p.2) m

/-- One exchange of sub-arrays — generators/xrandom.hpp:817-819. -/
def swapRows (a : StridedArr) (i j : Nat) (m : Mem β) : Mem β :=
  let buf := readView (rowView a j) m
  let m := writeView (rowView a j) (readView (rowView a i) m) m
  writeView (rowView a i) buf m

/-- The loop of `shuffle` on several axes — generators/xrandom.hpp:812-820. -/
def shuffleRowsLoop (a : StridedArr) (d : Nat → Nat) : Nat → Mem β → Mem β
  | 0, m => m
  | i + 1, m => shuffleRowsLoop a d i (swapRows a (i + 1) (d (i + 1)) m)

/-- `shuffle(e, engine)` on several axes — generators/xrandom.hpp:807-821. -/
def shuffleRows (a : StridedArr) (d : Nat → Nat) (m : Mem β) : Res (Mem β) :=
  if a.shape.getD 0 0 = 0 then .ub else .ok (shuffleRowsLoop a d (a.shape.getD 0 0 - 1) m)

/-- One element read into the result. -/
def pickAt (st : List α) (i : Nat) (r : Res (List α)) : Res (List α) :=
  match st[i]? with
  | some x => r.map (x :: ·)
  | none => .ub

/-- `choice(e, n, true, engine)` — generators/xrandom.hpp:880-887; `size` is the number of elements of `e`, `st` its
    storage, `d i` the i-th draw. -/
def choiceReplace (st : List α) (size n : Nat) (d : Nat → Nat) : Res (List α) :=
  if size = 0 ∧ n ≠ 0 then .ub
  else (List.range n).foldr (fun i => pickAt st (d i)) (.ok [])

/-- The loop of the reservoir sampling — generators/xrandom.hpp:893-901. -/
def reservoirLoop (d : Nat → Nat) (n : Nat) : List α → Nat → List α → List α
  | [], _, r => r
  | x :: l, i, r => reservoirLoop d n l (i + 1) (if d i < n then r.set (d i) x else r)

/-- `choice(e, n, false, engine)` — generators/xrandom.hpp:888-902; `st` is the storage of `e`. -/
def choiceUnique (st : List α) (n : Nat) (d : Nat → Nat) : Res (List α) :=
  if st.length < n then .ub else .ok (reservoirLoop d n (st.drop n) n (st.take n))

/-- `cumsum(weights)`. -/
def cumWeights (w : List ℚ) : List ℚ := (List.range w.length).map fun i => (w.take (i + 1)).sum

/-- One element of `choice(e, n, weights, true, engine)` — generators/xrandom.hpp:953-968; `u` is the draw from zero to the
    sum of the weights. -/
def choiceWeighted (l : List α) (w : List ℚ) (u : ℚ) : Res α :=
  match l[upperBound (cumWeights w) u]? with
  | some x => .ok x
  | none => .ub

/-- The contract of `std::partial_sort(begin, begin + n, end, before)`. -/
structure PartialSort (before : β → β → Bool) (ps : Nat → List β → List β) : Prop where
  perm : ∀ n l, (ps n l).Perm l
  sorted : ∀ n l i j x y, (ps n l)[i]? = some x → (ps n l)[j]? = some y → i < n → i < j → before y x = false

/-- `choice(e, n, weights, false, engine)` — generators/xrandom.hpp:969-999; `r i` is the i-th exponential draw. -/
def choiceWeightedUnique (ps : (Nat → Nat → Bool) → Nat → List Nat → List Nat) (l : List α) (w : List ℚ) (n : Nat)
    (r : Nat → ℚ) : Res (List α) :=
  if w.length < n then .ub
  else
    let keys := fun i => w.getD i 0 / r i
    ((ps (fun i j => decide (keys i > keys j)) n (List.range w.length)).take n).foldr
      (pickAt l) (.ok [])

end Xt
