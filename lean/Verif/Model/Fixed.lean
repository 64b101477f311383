import Verif.Model.Strides
import Verif.Model.Container
/-!
# Fixed shapes

Source: core/xshape.hpp, containers/xfixed.hpp, core/xfunction.hpp (under /repo/include/xtensor).
A template argument list `X...` is a list; a failing `static_assert` (the program is refused) is
`none`.  Arithmetic on extents is that of the integers.
-/

namespace Xt

/-- `at<IDX, X...>::value` — core/xshape.hpp:300-305: 0 out of bounds.  For an empty pack `arr` has no
elements, which compilers accept as an extension. -/
def packAt (xs : List Nat) (i : Nat) : Nat := if i < xs.length then xs.getD i 0 else 0

/-- `broadcast_fixed_shape_cmp_impl<JX, I, J>::I_v` — core/xshape.hpp:316-324.  `IX` wraps around below
0, where it is out of bounds. -/
def cmpI (I J : List Nat) (jx : Nat) : Nat :=
  if jx < J.length - I.length then 0 else packAt I (jx - (J.length - I.length))

/-- `broadcast_fixed_shape_cmp_impl<JX, I, J>::J_v` — core/xshape.hpp:325. -/
def cmpJ (J : List Nat) (jx : Nat) : Nat := packAt J jx

/-- The `static_assert` of `broadcast_fixed_shape_cmp_impl` — core/xshape.hpp:328. -/
def cmpOk (iv jv : Nat) : Bool := iv == 0 || iv == 1 || jv == 1 || jv == iv

/-- `broadcast_fixed_shape<I, J>`, members `type` and `value` — core/xshape.hpp:330-355. -/
def bcFixed (I J : List Nat) : Option (List Nat × Bool) :=
  if J.length < I.length then none
  else if (List.range J.length).all fun jx => cmpOk (cmpI I J jx) (cmpJ J jx) then
    some ((List.range J.length).map fun jx => if cmpI I J jx > cmpJ J jx then cmpI I J jx else cmpJ J jx,
      (List.range J.length).all fun jx => cmpI I J jx == cmpJ J jx)
  else none

/-- `promote_fixed<fixed_shape<I...>, S...>` for fixed shapes — core/xshape.hpp:443-464. -/
def promoteFixed (I : List Nat) : List (List Nat) → Option (List Nat × Bool)
  | [] => some (I, true)
  | J :: S =>
    match (if I.length > J.length then bcFixed J I else bcFixed I J) with
    | none => none
    | some r => (promoteFixed r.1 S).map fun q => (q.1, r.2 && q.2)

/-- `filter_scalar_t` — core/xshape.hpp:423-436; `none` is the shape `std::array<T, 0>` of a scalar. -/
def filterScalar : Option (List Nat) → List Nat
  | none => [1]
  | some s => s

/-- `promote_fixed<S...>` for fixed shapes and scalars — core/xshape.hpp:438-441: static shape and
`is_trivial` of an `xfunction` of such operands (core/xfunction.hpp:62-68, 400) and what
`xexpression_assigner::resize` uses (core/xassign.hpp:583-596). -/
def fixedFunction (ops : List (Option (List Nat))) : Option (List Nat × Bool) :=
  match ops.map filterScalar with
  | [] => none
  | I :: S => promoteFixed I S

/-- `calculate_stride<column_major, I, X...>` — containers/xfixed.hpp:99-110; for an axis past the end
there is no such type, here 0. -/
def calcStrideCol : Nat → List Nat → Int
  | 0, _ :: _ => 1
  | i + 1, y :: xs => (y : Int) * calcStrideCol i xs
  | _, [] => 0

/-- `calculate_stride_row_major<I, X...>` — containers/xfixed.hpp:112-123. -/
def calcStrideRowAux : Nat → List Nat → Int
  | 0, _ => 1
  | i + 1, xs => (packAt xs (xs.length - (i + 1)) : Int) * calcStrideRowAux i xs

/-- `calculate_stride<L, I, X...>` — containers/xfixed.hpp:96-129. -/
def calcStride (L : Layout) (i : Nat) (xs : List Nat) : Int :=
  if L = .row_major then calcStrideRowAux (xs.length - i - 1) xs else calcStrideCol i xs

/-- `get_strides<L>(fixed_shape<X...>)` — containers/xfixed.hpp:149-162, 225-229. -/
def getStridesFixed (L : Layout) (xs : List Nat) : List Int :=
  (List.range xs.length).map fun (i : Nat) => if xs.getD i 0 = 1 then 0 else calcStride L i xs

/-- `get_backstrides(shape, strides)` — containers/xfixed.hpp:164-168, 231-235; `shape[I] - 1` wraps and
is converted back, as in `backstride`. -/
def getBackstridesFixed (xs : List Nat) (st : List Int) : List Int :=
  (List.range xs.length).map fun (i : Nat) => st.getD i 0 * ((xs.getD i 0 : Int) - 1)

/-- `fixed_compute_size<fixed_shape<X...>>` — containers/xfixed.hpp:170-200. -/
def fixedSize : List Nat → Nat
  | [] => 1
  | [x] => x
  | y :: xs => y * fixedSize xs

/-- `std::equal(a.begin(), a.end(), m.begin()) && a.size() == m.size()`; reading `m` past its end is
undefined. -/
def equalThenSize : List Nat → List Nat → Res Bool
  | [], m => .ok m.isEmpty
  | _ :: _, [] => .ub
  | a :: as, m :: ms => if a = m then equalThenSize as ms else .ok false

/-- `xfixed_container::reshape(shape, layout)` — containers/xfixed.hpp:728-738 — for static shape `sh`
and layout `L`. -/
def fixedReshape (L : Layout) (sh new : List Nat) (l : Layout) : Res Unit :=
  (equalThenSize new sh).bind fun (b : Bool) => if b = true ∧ l = L then .ok () else .throws

/-- `xfixed_container::resize(shape)` — containers/xfixed.hpp:686-692: only an assertion. -/
def fixedResize (asserts : Bool) (sh new : List Nat) : Res Unit :=
  if asserts then (equalThenSize new sh).bind fun (b : Bool) => if b = true then .ok () else .throws
  else .ok ()

/-- `xfixed_container(const value_type& v)` — containers/xfixed.hpp:562-571. -/
def fixedOfScalar {α : Type} (sh : List Nat) (v : α) : Res (List (Option α)) :=
  if fixedSize sh ≠ 1 then .throws
  else .ok ((List.replicate (fixedSize sh) none).set 0 (some v))

/-- `xfixed_container::is_contiguous()` — containers/xfixed.hpp:753-759. -/
def fixedIsContiguous (L : Layout) (sh : List Nat) : Bool :=
  let st := getStridesFixed L sh
  st.isEmpty || (L == .row_major && st.getLast? == some 1) || (L == .column_major && st.head? == some 1)

end Xt
