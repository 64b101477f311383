import Verif.Model.Sort
import Verif.Model.Chunked
import Verif.Model.StridedView
import Mathlib.Data.Rat.Floor
/-!
# Model of `quantile` (misc/xsort.hpp:765-1081)

Numbers are rationals: rounding is not modelled.
-/

namespace Xt

open Spec (toInts rowIndices)

/-- `quantile_method` — misc/xsort.hpp:978-992. -/
inductive QuantileMethod
  | interpolated_inverted_cdf | hazen | weibull | linear | median_unbiased | normal_unbiased
  deriving DecidableEq, Repr

/-- `alpha` and `beta` of a method — misc/xsort.hpp:1007-1047. -/
def QuantileMethod.params : QuantileMethod → ℚ × ℚ
  | .interpolated_inverted_cdf => (0, 1)
  | .hazen => (1 / 2, 1 / 2)
  | .weibull => (0, 0)
  | .linear => (1, 1)
  | .median_unbiased => (1 / 3, 1 / 3)
  | .normal_unbiased => (3 / 8, 3 / 8)

/-- `p_n_m` — misc/xsort.hpp:847-849. -/
def quantilePos (n : Nat) (a b p : ℚ) : ℚ := p * (n : ℚ) + (a + p * (1 - a - b)) - 1

/-- `xt::cast<std::size_t>(clip(j, T(0), T(n - 1)))` — misc/xsort.hpp:854, core/xmath.hpp:604-610; `n - 1` wraps around
    for `n = 0`. -/
def clipIndex (n : Nat) (j : Int) : Nat :=
  let hi := ((n : Int) - 1) % 2 ^ 64
  (if j < 0 then 0 else if hi < j then hi else j).toNat

/-- First part of `quantile_kth_gamma`: the positions, first the lower and then the upper ones —
    misc/xsort.hpp:850-854. -/
def quantileKth (n : Nat) (ps : List ℚ) (a b : ℚ) : List Nat :=
  (ps.map fun p => clipIndex n ⌊quantilePos n a b p⌋) ++ ps.map fun p => clipIndex n (⌊quantilePos n a b p⌋ + 1)

/-- Second part: the coefficients — misc/xsort.hpp:856. -/
def quantileGamma (n : Nat) (ps : List ℚ) (a b : ℚ) : List ℚ :=
  (ps.map fun p => 1 - (quantilePos n a b p - ⌊quantilePos n a b p⌋)) ++
    ps.map fun p => quantilePos n a b p - ⌊quantilePos n a b p⌋

/-- `select_indices_impl`: `rest` is the shape from `current_dim` on, `pre` the index before —
    misc/xsort.hpp:771-818. -/
def selectFrom (indices : List Nat) (axis : Nat) : List Nat → Nat → List Nat → List (List Nat)
  | [], _, _ => []
  | [n], dim, pre => (if dim = axis then indices else List.range n).map fun i => pre ++ [i]
  | n :: m :: rest, dim, pre =>
    (if dim = axis then indices else List.range n).flatMap fun i => selectFrom indices axis (m :: rest) (dim + 1) (pre ++ [i])

/-- `select_indices(shape, indices, axis)` — misc/xsort.hpp:820-827. -/
def selectIndices (shape indices : List Nat) (axis : Nat) : List (List Nat) := selectFrom indices axis shape 0 []

/-- Element of `reshape_view(e, shape)`, `e` of shape `sh` with elements `f`. -/
def reshapeAt (sh shape : List Nat) (f : List Nat → Res ℚ) (q : List Nat) : Res ℚ :=
  (orUb (reshapeViewIndex sh .row_major shape (toInts q))).bind fun j => f (j.map Int.toNat)

/-- Elements of an evaluated expression, one after the other. -/
def evalAll (f : List Nat → Res ℚ) : List (List Nat) → Res (List ℚ)
  | [] => .ok []
  | q :: qs => (f q).bind fun x => (evalAll f qs).map (x :: ·)

/-- Element of `fancy_indexing(e, indices, axis)` — misc/xsort.hpp:831-842, views/xindex_view.hpp:449-476. -/
def fancyAt (e : Buf ℚ) (indices : List Nat) (ax : Nat) (q : List Nat) : Res ℚ :=
  let sel := selectIndices e.shape indices ax
  reshapeAt [sel.length] (e.shape.set ax indices.length)
    (fun k => (orUb sel[k.headD 0]?).bind fun idx => (e.elementPos idx).bind fun i => orUb e.data[i]?) q

/-- Element of `e_kth * gm1_g_reshaped`: the second operand has extent 1 on all axes but `ax` —
    misc/xsort.hpp:921-928. -/
def weightedAt (e : Buf ℚ) (indices : List Nat) (gamma : List ℚ) (ax : Nat) (q : List Nat) : Res ℚ :=
  (fancyAt e indices ax q).bind fun x =>
    (reshapeAt [gamma.length] ((List.replicate e.shape.length 1).set ax gamma.length) (fun k => orUb gamma[k.headD 0]?)
      ((List.replicate e.shape.length 0).set ax (q.getD ax 0))).map fun g => x * g

/-- `e_kth_g_shape` — misc/xsort.hpp:860-868, 930-932. -/
def pairShape (sh : List Nat) (ax : Nat) : List Nat :=
  let s := (sh.insertIdx ax 1).set ax 2
  s.set (ax + 1) (s.getD (ax + 1) 0 / 2)

/-- Element of `sum(reshape_view(e_kth_g, e_kth_g_shape), ax)`, from the initial value 0 — misc/xsort.hpp:933. -/
def pairSumAt (e : Buf ℚ) (indices : List Nat) (gamma : List ℚ) (ax : Nat) (q : List Nat) : Res ℚ :=
  let sh := e.shape.set ax indices.length
  (reshapeAt sh (pairShape sh ax) (weightedAt e indices gamma ax) (q.insertIdx ax 0)).bind fun x =>
    (reshapeAt sh (pairShape sh ax) (weightedAt e indices gamma ax) (q.insertIdx ax 1)).map fun y => 0 + x + y

/-- `quantile(e, probas, axis, alpha, beta)` — misc/xsort.hpp:900-936: the returned view and the storage it refers to.
    `L` is the layout of the temporary made by `partition`. -/
def quantileAxis (nth : List ℚ → Nat → List ℚ) (L : Layout) (v : Strd) (mem : Int → ℚ) (ps : List ℚ) (axis : Int)
    (a b : ℚ) : Res (Strd × (Int → ℚ)) :=
  let ax := normalizeAxis v.shape.length axis
  if v.shape.length ≤ ax then .ub
  else
    let n := v.shape.getD ax 0
    let kth := quantileKth n ps a b
    (partitionAxis nth L v mem kth (ax : Int)).bind fun part =>
      let shape := (pairShape (part.shape.set ax kth.length) ax).eraseIdx ax
      (evalAll (pairSumAt part kth (quantileGamma n ps a b) ax) (rowIndices shape)).bind fun data =>
        let buf : Buf ℚ := ⟨shape, .row_major, data⟩
        (moveaxis buf.strd (ax : Int) 0).map fun w => (w, buf.mem)

/-- `quantile(e, probas, axis, method)` — misc/xsort.hpp:1003-1049. -/
def quantileMethodAxis (nth : List ℚ → Nat → List ℚ) (L : Layout) (v : Strd) (mem : Int → ℚ) (ps : List ℚ) (axis : Int)
    (m : QuantileMethod) : Res (Strd × (Int → ℚ)) :=
  quantileAxis nth L v mem ps axis m.params.1 m.params.2

end Xt
