import Verif.Model.Semantic
/-!
# Model: `argwhere`, `nonzero`, index views, `filter` and `filtration`

core/xoperation.hpp:788-924 and views/xindex_view.hpp.  A condition is given by its elements: a boolean for each index.
Memory is addressed as in `Model/Assign.lean`.
-/

namespace Xt

/-! ### Indices of the elements that hold -/

/-- `next_idx_impl<column_major>` — core/xoperation.hpp:816-836.  The empty index returned after the last one is not
    used.  `shape[i] - 1` does not wrap: the function is not called for empty shapes. -/
def nextCol : List Nat → List Nat → List Nat
  | n :: sh, i :: idx => if i ≥ n - 1 then 0 :: nextCol sh idx else (i + 1) :: idx
  | _, _ => []

/-- `next_idx<L>`; the row-major version (core/xoperation.hpp:791-814) goes through the axes from the last. -/
def whereNext (L : Layout) (sh idx : List Nat) : List Nat :=
  if L = .row_major then (nextCol sh.reverse idx.reverse).reverse else nextCol sh idx

/-- The loop of `argwhere`, `n` steps left — core/xoperation.hpp:914-920. -/
def argwhereLoop (next : List Nat → List Nat) (c : List Nat → Bool) : Nat → List Nat → List (List Nat)
  | 0, _ => []
  | n + 1, idx =>
    if c idx then idx :: argwhereLoop next c n (next idx) else argwhereLoop next c n (next idx)

/-- `argwhere<L>(arr)` — core/xoperation.hpp:904-923. -/
def argwhere (L : Layout) (sh : List Nat) (c : List Nat → Bool) : List (List Nat) :=
  argwhereLoop (whereNext L sh) c (sh.foldl (· * ·) 1) (List.replicate sh.length 0)

/-- The loop of `nonzero`, `n` steps left; `cols` is `indices` — core/xoperation.hpp:866-875. -/
def nonzeroLoop (next : List Nat → List Nat) (c : List Nat → Bool) :
    Nat → List Nat → List (List Nat) → List (List Nat)
  | 0, _, cols => cols
  | n + 1, idx, cols =>
    nonzeroLoop next c n (next idx)
      (if c idx then List.zipWith (fun (col : List Nat) (i : Nat) => col ++ [i]) cols idx else cols)

/-- `nonzero(arr)` — core/xoperation.hpp:855-878, in the default traversal order. -/
def nonzero (sh : List Nat) (c : List Nat → Bool) : List (List Nat) :=
  nonzeroLoop (whereNext .row_major sh) c (sh.foldl (· * ·) 1) (List.replicate sh.length 0)
    (List.replicate sh.length [])

/-! ### Index views -/

/-- `xindex_view` of a strided expression — views/xindex_view.hpp:189-195. -/
structure IdxView where
  base : StridedArr
  indices : List (List Nat)

/-- Address of `m_e[index]` — views/xindex_view.hpp:403, containers/xcontainer.hpp:665-703. -/
def StridedArr.at (c : StridedArr) (idx : List Nat) : Int := c.off + elementOffset c.strides (idx.map Int.ofNat)

/-- `operator()(args...)`: the last argument counts, none means 0 — views/xindex_view.hpp:399-412.
    `none`: `m_indices` is read outside. -/
def IdxView.call (v : IdxView) (args : List Nat) : Option Int := v.indices[args.getLastD 0]?.map v.base.at

/-- `element(first, last)` and `operator[]`: the first index counts — views/xindex_view.hpp:449-500. -/
def IdxView.element (v : IdxView) (args : List Nat) : Option Int :=
  args.head?.bind fun i => v.indices[i]?.map v.base.at

/-- `filter<L>(e, condition)` — views/xindex_view.hpp:816-822. -/
def filterView (L : Layout) (base : StridedArr) (sh : List Nat) (c : List Nat → Bool) : IdxView :=
  ⟨base, argwhere L sh c⟩

/-- The view as an operand: an `xindexed_stepper` over shape `(n)` that calls `element` with its index —
    views/xindex_view.hpp:77-82, 568-598. -/
def IdxView.expr (v : IdxView) : Ex Int :=
  .gen [v.indices.length] fun i => (v.element (i.map Int.toNat)).getD 0

/-- The addresses `&*it` for `it = begin(), ..., end()`. -/
def IdxView.addrs (v : IdxView) : List Int := v.indices.map v.base.at

section
variable {β : Type}

/-- `v = s`, `v.fill(s)` — views/xindex_view.hpp:303-309, 380-385. -/
def idxFill (dst : List Int) (x : β) (m : Mem β) : Mem β :=
  dst.foldl (fun (m : Mem β) (p : Int) => m.set p x) m

/-- `v op= s` — core/xsemantic.hpp:757-771. -/
def idxScalar (g : β → β) (dst : List Int) (m : Mem β) : Mem β :=
  dst.foldl (fun (m : Mem β) (p : Int) => m.set p (g (m p))) m

/-- `memory_range(addressof(*begin()), addressof(*rbegin()))` of addressable elements — utils/xutils.hpp:917-938. -/
def addrRange (l : List Int) : Option (Int × Int) :=
  if l.length = 0 then none else some (memoryRange (l.headD 0) (l.getLastD 0))

/-- `check_overlap` of a function of addressable operands — utils/xutils.hpp:868-910, core/xfunction.hpp:169-204. -/
def idxOverlaps (dst : List Int) (srcs : List (List Int)) : Bool :=
  match addrRange dst with
  | none => false
  | some r => srcs.any fun l => decide (l.length ≠ 0) && rangeOverlaps r (l.headD 0) (l.getLastD 0)

/-- Element `k` of `f(src1, src2, ...)`, the operands given by the addresses of their elements. -/
def srcValue (f : List β → β) (srcs : List (List Int)) (k : Nat) (m : Mem β) : β :=
  f (srcs.map fun l => m (l.getD k 0))

/-- The stores of the assignment of `f(src1, ...)` to the elements at `dst`, one after the other; `k` is the number of
    elements before — core/xassign.hpp:653-667. -/
def idxDirect (f : List β → β) (srcs : List (List Int)) : List Int → Nat → Mem β → Mem β
  | [], _, m => m
  | p :: dst, k, m => idxDirect f srcs dst (k + 1) (m.set p (srcValue f srcs k m))

/-- `std::copy(tmp.cbegin(), tmp.cend(), begin())` — views/xindex_view.hpp:311-315. -/
def idxCopy : List Int → List β → Mem β → Mem β
  | p :: dst, x :: tmp, m => idxCopy dst tmp (m.set p x)
  | _, _, m => m

/-- `v = f(src1, ...)` for operands of the shape of the view, the temporary lying elsewhere — core/xsemantic.hpp:620-641,
    772-793.  `v op= e` is this with the view itself as an operand (407-499). -/
def idxAssign (f : List β → β) (srcs : List (List Int)) (dst : List Int) (m : Mem β) : Mem β :=
  if idxOverlaps dst srcs then
    idxCopy dst ((List.range dst.length).map fun k => srcValue f srcs k m) m
  else idxDirect f srcs dst 0 m

/-! ### Filtration -/

/-- `xfiltration::apply`: `std::transform` over the elements of the expression, addresses `dst`, and as many of the
    condition, whose elements depend on the memory — views/xindex_view.hpp:653-766.  A condition with fewer elements
    is read past its end. -/
def filtrationLoop (g : β → β) : List Int → List (Mem β → Bool) → Mem β → Res (Mem β)
  | [], _, m => .ok m
  | p :: dst, c :: cs, m => filtrationLoop g dst cs (m.set p (if c m then g (m p) else m p))
  | _ :: _, [], _ => .ub

/-- `filtration(e, condition) op= s`: both traversed in the default order over their own shapes. -/
def filtration (g : β → β) (base : StridedArr) (csh : List Nat) (c : List Nat → Mem β → Bool) (m : Mem β) :
    Res (Mem β) :=
  filtrationLoop g ((Ex.arr base (fun q => q)).values .row_major base.shape) ((Ex.gen csh fun i => c (i.map Int.toNat)).values .row_major csh) m

end

end Xt
