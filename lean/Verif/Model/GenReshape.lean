import Verif.Model.Builder
import Verif.Model.StridedView
import Verif.Model.Chunked
import Verif.Spec.Index
import Verif.Model.Stepper
/-!
# Model: `xgenerator::reshape` (generators/xgenerator.hpp:385-488)

The result is an `xstrided_view` of the generator over a `flat_expression_adaptor`.
-/

namespace Xt
open Spec

/-- Loop of `compute_shape` for signed shapes of `w` bits — generators/xgenerator.hpp:450-464: extents, product, axis of the
last negative one.  `dynamic_shape` starts with zeros.  The assertion (458) is off by default and not modelled. -/
def genShapeLoop (w : Nat) : List Int → Nat → List Nat → Int → Nat → Res (List Nat × Int × Nat)
  | [], _, sh, acc, neg => .ok (sh, acc, neg)
  | d :: ds, i, sh, acc, neg => (signedFit w (acc * d)).bind fun acc' =>
      if d < 0 then genShapeLoop w ds (i + 1) (sh ++ [0]) acc' i
      else genShapeLoop w ds (i + 1) (sh ++ [d.toNat]) acc' neg

/-- `compute_shape` for signed shapes — generators/xgenerator.hpp:442-472, reached from braces by 474-482. -/
def genComputeShape (w size : Nat) (shape : List Int) : Res (List Nat) :=
  (genShapeLoop w shape 0 [] 1 0).bind fun r =>
    if r.2.1 < 0 then (signedFit w (-r.2.1)).bind fun m => .ok (r.1.set r.2.2 (size / m.toNat)) else .ok r.1

/-- `g.reshape(shape)` after `compute_shape` — generators/xgenerator.hpp:407-440, views/xstrided_view.hpp:857-885; an unsigned
shape is not changed by `recalculate_shape` (843-848). -/
structure ReshapedGen (α : Type) where
  gen : Gen α
  shape : List Nat

/-- `g.reshape(shape)` with a signed shape. -/
def Gen.reshapeSigned {α : Type} (g : Gen α) (w : Nat) (shape : List Int) : Res (ReshapedGen α) :=
  (genComputeShape w (numel g.shape) shape).map fun s => ⟨g, s⟩

variable {α : Type}

/-- Strides of the view — views/xstrided_view.hpp:869-871. -/
def ReshapedGen.strides (r : ReshapedGen α) : List Int := (computeStrides .dynamic .row_major r.shape).1

/-- `storage()[p]`, that is `flat_expression_adaptor::operator[]` — views/xstrided_view_base.hpp:729-743. -/
def ReshapedGen.flat (r : ReshapedGen α) (p : Int) : Res α :=
  (orUb (unravelFromStrides p (computeStrides .dynamic .row_major r.gen.shape).1 .row_major)).bind fun j =>
    r.gen.elem (j.map Int.toNat)

/-- `operator()` — views/xstrided_view_base.hpp:661-667. -/
def ReshapedGen.call (r : ReshapedGen α) (args : List Nat) : Res α := r.flat (dataOffset r.strides false (toInts args))

/-- `element` and `operator[]` — views/xstrided_view_base.hpp:677-682. -/
def ReshapedGen.element (r : ReshapedGen α) (idx : List Int) : Res α := r.flat (elementOffset r.strides idx)

/-- What `begin<L>(osh)` … `end<L>(osh)` reads: the steppers are `xindexed_stepper`s, because those of the generator are —
views/xstrided_view.hpp:93-103, 580-630. -/
def ReshapedGen.walk (r : ReshapedGen α) (L : Layout) (osh : List Nat) : List (Res α) :=
  let ops := xindexedOps r.shape (osh.length - r.shape.length)
  let ix := List.replicate r.shape.length (0 : Int)
  (XIter.walk ops L osh (XIter.mkEnd (ops.toEnd ix .row_major) L osh) (numel osh + 1) (XIter.mkBegin ix osh)).map r.element

end Xt
