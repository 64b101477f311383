import Verif.Model.Chunked
import Verif.Model.Numeric
/-!
# Model: block-wise reducers (`reducers/xblockwise_reducer.hpp`, `reducers/xblockwise_reducer_functors.hpp`)

The input and the destination are containers, shapes have dynamic dimension, numbers are rationals.  The evaluation strategy
of the reductions of blocks is the default one, lazy.
-/

namespace Xt

open Spec (toInts)

/-! ### Multi-index iterator -/

/-- Loop of `operator++` — core/xmultiindex_iterator.hpp:44-62, from the last axis on. -/
def multiIncLoop (first last : List Nat) : Nat → List Nat → List Nat
  | 0, cur => cur
  | i + 1, cur =>
    if cur.getD i 0 + 1 = last.getD i 0 then multiIncLoop first last i (cur.set i (first.getD i 0))
    else cur.set i (cur.getD i 0 + 1)

/-- Linear index of the end — core/xmultiindex_iterator.hpp:109-128. -/
def multiEnd (first last : List Nat) : Nat :=
  (List.range first.length).foldl (fun n i => n * (last.getD i 0 - first.getD i 0)) 1

/-- The loop `while (iter != end)` — reducers/xblockwise_reducer.hpp:164-181; iterators compare by their linear index
    (core/xmultiindex_iterator.hpp:81-89).  The first argument bounds the number of turns. -/
def multiLoop {σ : Type} (first last : List Nat) (body : List Nat → σ → Res σ) : Nat → List Nat → Nat → σ → Res σ
  | 0, _, _, _ => .ub
  | fuel + 1, cur, linear, s =>
    if linear = multiEnd first last then .ok s
    else (body cur s).bind fun s =>
      multiLoop first last body fuel (multiIncLoop first last first.length cur) (linear + 1) s

/-- The whole loop, from `multiindex_iterator_begin` — core/xmultiindex_iterator.hpp:99-106. -/
def forMulti {σ : Type} (first last : List Nat) (body : List Nat → σ → Res σ) (s : σ) : Res σ :=
  multiLoop first last body (multiEnd first last + 1) first 0 s

/-! ### Shapes -/

/-- Shape of the result, its chunk shape, and the axis of the input of each of its axes — reducers/xblockwise_reducer.hpp:69-71. -/
structure BwShapes where
  shape : List Nat
  chunk : List Nat
  mapping : List Nat
  deriving DecidableEq, Repr

/-- `std::find(m_axes.begin(), m_axes.end(), i) != m_axes.end()`: the axes are compared with an unsigned number —
    reducers/xblockwise_reducer.hpp:234, 256. -/
def inAxes (axes : List Int) (i : Nat) : Bool := axes.any fun a => decide (toSizeT a = i)

/-- `init_shapes()` — reducers/xblockwise_reducer.hpp:220-266.  Without `keep_dims` the dimension of the result is the difference
    of unsigned numbers; writing more axes than that is out of bounds. -/
def bwShapes (sh cs : List Nat) (axes : List Int) (keep : Bool) : Res BwShapes :=
  if keep then
    .ok ⟨(List.range sh.length).map fun i => if inAxes axes i then 1 else sh.getD i 0,
      (List.range sh.length).map fun i => if inAxes axes i then 1 else cs.getD i 0, List.range sh.length⟩
  else
    let kept := (List.range sh.length).filter fun i => !inAxes axes i
    if sh.length < axes.length then .throws
    else if sh.length - axes.length < kept.length then .ub
    else .ok ⟨kept.map fun i => sh.getD i 0, kept.map fun i => cs.getD i 0, kept⟩

/-- `compute_input_chunk_range(result_chunk_iter)` — reducers/xblockwise_reducer.hpp:187-218: first chunk and end per axis. -/
def bwRange (grid : List Nat) (s : BwShapes) (ci : List Nat) : List Nat × List Nat :=
  (List.range s.shape.length).foldl (fun (p : List Nat × List Nat) r =>
    if s.shape.getD r 0 ≠ 1 then
      (p.1.set (s.mapping.getD r 0) (ci.getD r 0), p.2.set (s.mapping.getD r 0) (ci.getD r 0 + 1))
    else p) (List.replicate grid.length 0, grid)

/-! ### Blocks -/

/-- A reduction functor — reducers/xblockwise_reducer_functors.hpp.  `merge` gives what is assigned to the chunk of the result
    and the new reduction variable; `finalize` what is assigned at the end, if anything. -/
structure BwFn (B M : Type) where
  compute : Ex ℚ → List Nat → List Int → Bool → Res B
  init : M
  merge : B → Bool → LazyEx ℚ → M → Res (LazyEx ℚ × M)
  finalize : M → LazyEx ℚ → List Nat → List Int → Option (LazyEx ℚ)

/-- A strided view of a container as an operand. -/
def blockEx {α : Type} [Inhabited α] (e : Buf α) (v : SView) : Ex α :=
  .arr (StridedArr.mk' (v.shape.map Int.toNat) v.strides v.offset) e.mem

/-- `strided_view(out, us)` read. -/
def regionEx {α : Type} [Inhabited α] (out : Buf α) (us : List USlice) : Res (LazyEx α) :=
  (stridedView out.shape out.strides 0 out.layout us).map fun v => ⟨v.shape.map Int.toNat, viewAt out v⟩

variable {B M : Type}

/-- Body of the loop over the chunks of the input — reducers/xblockwise_reducer.hpp:167-181.  The state is the result, the
    reduction variable and `first`.  The right-hand side of an assignment reads an element of the chunk only for that element,
    so it is evaluated before the assignment.  `get_input_chunk_iter` (141-151) also computes the linear index of the chunk, which
    a chunk of a view does not use (chunk/xchunked_assign.hpp:132-135). -/
def bwStep (F : BwFn B M) (e : Buf ℚ) (cs : List Nat) (axes : List Int) (keep : Bool) (it : ChunkIt) (idx : List Nat)
    (st : Buf ℚ × M × Bool) : Res (Buf ℚ × M × Bool) :=
  (stridedView e.shape e.strides 0 e.layout (chunkIt e.shape cs idx 0).sv).bind fun v =>
    (F.compute (blockEx e v) (v.shape.map Int.toNat) axes keep).bind fun b =>
      (regionEx st.1 it.sv).bind fun cur =>
        (F.merge b st.2.2 cur st.2.1).bind fun r =>
          (assignRegion st.1 it.sv r.1.shape r.1.elem).map fun o => (o, r.2, false)

/-- Assignment of `finalize`. -/
def bwFinish (out : Buf ℚ) (us : List USlice) : Option (LazyEx ℚ) → Res (Buf ℚ)
  | none => .ok out
  | some r => assignRegion out us r.shape r.elem

/-- `assign_to_chunk(result_chunk_iter)` — reducers/xblockwise_reducer.hpp:153-185. -/
def bwChunk (F : BwFn B M) (e : Buf ℚ) (cs grid : List Nat) (s : BwShapes) (axes : List Int) (keep : Bool) (it : ChunkIt)
    (out : Buf ℚ) : Res (Buf ℚ) :=
  let range := bwRange grid s it.index
  (forMulti range.1 range.2 (bwStep F e cs axes keep it) (out, F.init, true)).bind fun st =>
    (regionEx st.1 it.sv).bind fun cur => bwFinish st.1 it.sv (F.finalize st.2.1 cur e.shape axes)

/-- `blockwise_reducer(e, chunk_shape, axes, options, functor).assign_to(result)` with a sequence of axes —
    reducers/xblockwise_reducer.hpp:75-98, 129-139, 268-282; the overloads with one axis and for all axes (308-347) pass a
    sequence. -/
def blockwiseAssign (F : BwFn B M) (e : Buf ℚ) (cs : List Nat) (axes : List Int) (keep : Bool) (out : Buf ℚ) : Res (Buf ℚ) :=
  (gridShape e.shape cs).bind fun grid =>
    (bwShapes e.shape cs axes keep).bind fun s =>
      (gridShape out.shape s.chunk).bind fun rgrid =>
        forChunks out.shape s.chunk rgrid (bwChunk F e cs grid s axes keep) out

/-- The same with braced axes, which are normalised — reducers/xblockwise_reducer.hpp:348-363. -/
def blockwiseBraced (F : BwFn B M) (e : Buf ℚ) (cs : List Nat) (axes : List Int) (keep : Bool) (out : Buf ℚ) : Res (Buf ℚ) :=
  blockwiseAssign F e cs (axes.map fun a => (normalizeAxis e.shape.length a : Int)) keep out

/-! ### Functors -/

/-- `merge` of the functors that combine `result op block_result` — reducers/xblockwise_reducer_functors.hpp:59-70, 84-95. -/
def mergeAcc (op : ℚ → ℚ → ℚ) (b : LazyEx ℚ) (first : Bool) (cur : LazyEx ℚ) (m : Unit) : Res (LazyEx ℚ × Unit) :=
  if first then .ok (b, m) else (zipEx op cur b).map fun r => (r, m)

/-- `merge` of `amin_functor`, `amax_functor`, `norm_linf_functor`: `f(block_result, result)` —
    reducers/xblockwise_reducer_functors.hpp:109-120, 134-145, 387-398. -/
def mergeExtremum (op : ℚ → ℚ → ℚ) (b : LazyEx ℚ) (first : Bool) (cur : LazyEx ℚ) (m : Unit) : Res (LazyEx ℚ × Unit) :=
  if first then .ok (b, m) else (zipEx op b cur).map fun r => (r, m)

/-- Functors of `prod` — core/xmath.hpp:367-383, 1852. -/
def prodFnsQ : RedFns ℚ ℚ := ⟨(· * ·), 1, (· * ·)⟩

/-- A function of one operand. -/
def unaryEx (f : ℚ → ℚ) (e : Ex ℚ) : Ex ℚ := .fn (fun l => f (l.headD 0)) (.cons e .nil)

/-- Sum of `f` of the elements, and nothing at the end. -/
def sumOfBw (f : ℚ → ℚ) : BwFn (LazyEx ℚ) Unit where
  compute e sh axes keep := lazyReduce sumFnsQ 0 (unaryEx f e) sh axes keep
  init := ()
  merge := mergeAcc (· + ·)
  finalize _ _ _ _ := none

/-- `sum_functor` — reducers/xblockwise_reducer_functors.hpp:48-71. -/
def sumBw : BwFn (LazyEx ℚ) Unit where
  compute e sh axes keep := lazyReduce sumFnsQ 0 e sh axes keep
  init := ()
  merge := mergeAcc (· + ·)
  finalize _ _ _ _ := none

/-- `prod_functor` — reducers/xblockwise_reducer_functors.hpp:73-96. -/
def prodBw : BwFn (LazyEx ℚ) Unit where
  compute e sh axes keep := lazyReduce prodFnsQ 1 e sh axes keep
  init := ()
  merge := mergeAcc (· * ·)
  finalize _ _ _ _ := none

/-- `amin_functor` — reducers/xblockwise_reducer_functors.hpp:98-121; `hi` is the largest number of the type. -/
def aminBw (hi : ℚ) : BwFn (LazyEx ℚ) Unit where
  compute e sh axes keep :=
    (lazyReduce (aminFns hi) (aminFns hi).init e sh axes keep).map fun s => ⟨s.shape, fun i => (s.elem i).1⟩
  init := ()
  merge := mergeExtremum min
  finalize _ _ _ _ := none

/-- `amax_functor` — reducers/xblockwise_reducer_functors.hpp:123-146, and with `f` the absolute value `norm_linf_functor` —
    reducers/xblockwise_reducer_functors.hpp:376-399; `lo` is the lowest number of the type. -/
def amaxBw (f : ℚ → ℚ) (lo : ℚ) : BwFn (LazyEx ℚ) Unit where
  compute e sh axes keep :=
    (lazyReduce (amaxFns lo) (amaxFns lo).init (unaryEx f e) sh axes keep).map fun s => ⟨s.shape, fun i => (s.elem i).1⟩
  init := ()
  merge := mergeExtremum max
  finalize _ _ _ _ := none

/-- Product of the extents along axes — reducers/xblockwise_reducer_functors.hpp:181-186, 200-204. -/
def axesExtent (sh : List Nat) (axes : List Int) : Nat := axes.foldl (fun n a => n * sh.getD a.toNat 0) 1

/-- `mean_functor` — reducers/xblockwise_reducer_functors.hpp:148-189. -/
def meanBw : BwFn (LazyEx ℚ) Unit where
  compute e sh axes keep := lazyReduce sumFnsQ 0 e sh axes keep
  init := ()
  merge := mergeAcc (· + ·)
  finalize _ cur sh axes := some ⟨cur.shape, fun i => cur.elem i / (axesExtent sh axes : ℚ)⟩

/-- `new_mean` — reducers/xblockwise_reducer_functors.hpp:237. -/
def newMean (na nb ma mb : ℚ) : ℚ := (na * ma + nb * mb) / (na + nb)

/-- `new_variance` — reducers/xblockwise_reducer_functors.hpp:238-241; the arguments are variances and means of both parts. -/
def newVariance (na nb : ℚ) (v m : ℚ × ℚ) : ℚ :=
  (na * v.1 + nb * v.2 + na * (m.1 - newMean na nb m.1 m.2) ^ 2 + nb * (m.2 - newMean na nb m.1 m.2) ^ 2) / (na + nb)

/-- `merge` of `variance_functor` — reducers/xblockwise_reducer_functors.hpp:220-246; the reduction variable is the mean and the
    number of elements so far. -/
def mergeVariance (b : LazyEx ℚ × LazyEx ℚ × ℚ) (first : Bool) (cur : LazyEx ℚ) (m : LazyEx ℚ × ℚ) :
    Res (LazyEx ℚ × (LazyEx ℚ × ℚ)) :=
  if first then .ok (b.1, b.2.1, m.2 + b.2.2)
  else
    (zipEx Prod.mk cur b.1).bind fun v =>
      (zipEx Prod.mk m.1 b.2.1).bind fun ms =>
        (zipEx (newVariance m.2 b.2.2) v ms).bind fun nv =>
          (zipEx (newMean m.2 b.2.2) m.1 b.2.1).map fun nm => (nv, nm, m.2 + b.2.2)

/-- `variance_functor` and, with `root` the square root, `stddev_functor` — reducers/xblockwise_reducer_functors.hpp:191-262.
    `L`, `junk` are the layout and the contents of temporaries of `variance`. -/
def varianceBw (L : Layout) (junk : ℚ) (root : Option (ℚ → ℚ)) : BwFn (LazyEx ℚ × LazyEx ℚ × ℚ) (LazyEx ℚ × ℚ) where
  compute e sh axes keep :=
    (varianceSeq L e sh axes keep 0 junk).bind fun v =>
      (meanAxes e sh axes keep 0).map fun m => (v, m, (axesExtent sh axes : ℚ))
  init := (⟨[], fun _ => junk⟩, 0)
  merge := mergeVariance
  finalize _ cur _ _ := root.map fun f => ⟨cur.shape, fun i => f (cur.elem i)⟩

/-- `not_equal(x, 0)` — reducers/xblockwise_reducer_functors.hpp:272. -/
def nonZero (x : ℚ) : ℚ := if x ≠ 0 then 1 else 0

/-- `norm_l0_functor` — reducers/xblockwise_reducer_functors.hpp:264-287. -/
def normL0Bw : BwFn (LazyEx ℚ) Unit := sumOfBw nonZero

/-- `norm_l1_functor` — reducers/xblockwise_reducer_functors.hpp:289-312. -/
def normL1Bw : BwFn (LazyEx ℚ) Unit := sumOfBw abs

/-- `norm_sq_functor` — reducers/xblockwise_reducer_functors.hpp:351-374. -/
def normSqBw : BwFn (LazyEx ℚ) Unit := sumOfBw fun x => x * x

/-- `norm_l2_functor` — reducers/xblockwise_reducer_functors.hpp:314-349; `root` is the square root. -/
def normL2Bw (root : ℚ → ℚ) : BwFn (LazyEx ℚ) Unit :=
  { normSqBw with finalize := fun _ cur _ _ => some ⟨cur.shape, fun i => root (cur.elem i)⟩ }

/-- `norm_lp_to_p_functor` — reducers/xblockwise_reducer_functors.hpp:401-447, for an exponent that is a natural number: the sum
    of the powers of the elements. -/
def normLpToPBw (p : Nat) : BwFn (LazyEx ℚ) Unit := sumOfBw fun x => x ^ p

end Xt
