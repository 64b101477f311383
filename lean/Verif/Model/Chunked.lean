import Verif.Model.Pad
/-!
# Model: chunked arrays (`chunk/xchunked_array.hpp`, `chunk/xchunked_assign.hpp`, `chunk/xchunked_view.hpp`)

`size_type` is a natural number.  A chunk shape has as many entries as the shape; `resize` with a longer list is not
modelled.
-/

namespace Xt

open Spec (toInts rowIndices)

/-- `element(first, last)` of a container: position in the storage — containers/xcontainer.hpp:534-540; outside the
storage is undefined. -/
def Buf.elementPos {α : Type} (b : Buf α) (idx : List Nat) : Res Nat :=
  let k := elementOffset b.strides (toInts idx)
  if 0 ≤ k ∧ k < b.data.length then .ok k.toNat else .ub

/-- Reading an element that may be outside a sequence. -/
def orUb {α : Type} : Option α → Res α
  | none => .ub
  | some x => .ok x

/-- `xchunked_array` — members at chunk/xchunked_array.hpp:200-202; `chunks` is `m_chunks`, an array of arrays. -/
structure Chunked (α : Type) where
  shape : List Nat
  chunkShape : List Nat
  chunks : Buf (Buf α)
  deriving DecidableEq, Repr

/-- Number of chunks per axis — chunk/xchunked_array.hpp:604-620 and chunk/xchunked_view.hpp:122-148. A chunk extent of 0
divides by zero; a short chunk shape is read past its end. -/
def gridShape : List Nat → List Nat → Res (List Nat)
  | [], _ => .ok []
  | _ :: _, [] => .ub
  | s :: sh, c :: cs =>
    if c = 0 then .ub
    else (gridShape sh cs).map fun g => (if s % c > 0 then s / c + 1 else s / c) :: g

/-- `resize(shape, chunk_shape, chunk_memory_layout)` — chunk/xchunked_array.hpp:600-626 with
`chunk_helper_impl::resize` at 298-307.  `gl` is the layout of the grid, `cl` that of the chunks, `x` stands for what
the uninitialised elements hold. -/
def chunkedResize {α : Type} (gl cl : Layout) (x : α) (shape cshape : List Nat) : Res (Chunked α) :=
  if cshape.length ≠ shape.length then .ub
  else (gridShape shape cshape).map fun g =>
    ⟨shape, cshape, ⟨g, gl, List.replicate (g.foldl (· * ·) 1) ⟨cshape, cl, List.replicate (cshape.foldl (· * ·) 1) x⟩⟩⟩

/-- `get_indexes`, `get_indexes_dynamic` with `get_chunk_indexes_in_dimension` — chunk/xchunked_array.hpp:628-684: chunk
and position in the chunk of each coordinate; the first argument pairs with the first chunk extent. -/
def getIndexes : List Nat → List Nat → Res (List Nat × List Nat)
  | _, [] => .ok ([], [])
  | [], _ :: _ => .ub
  | c :: cs, i :: idx =>
    if c = 0 then .ub
    else (getIndexes cs idx).map fun (p : List Nat × List Nat) => (i / c :: p.1, (i - i / c * c) :: p.2)

/-- Chunk number in the storage of the grid and position in the storage of the chunk reached by `operator()` and
`element` — chunk/xchunked_array.hpp:448-482. -/
def Chunked.locate {α : Type} (a : Chunked α) (idx : List Nat) : Res (Nat × Nat) :=
  (getIndexes a.chunkShape idx).bind fun p =>
    (a.chunks.elementPos p.1).bind fun k =>
      (orUb a.chunks.data[k]?).bind fun c => (c.elementPos p.2).map fun j => (k, j)

/-- `a(args...)`, `a.element(first, last)` read. -/
def Chunked.get {α : Type} (a : Chunked α) (idx : List Nat) : Res α :=
  (a.locate idx).bind fun p => (orUb a.chunks.data[p.1]?).bind fun c => orUb c.data[p.2]?

/-- Storage of a chunk with one element replaced. -/
def setInChunk {α : Type} (j : Nat) (x : α) (c : Buf α) : Buf α := { c with data := c.data.set j x }

/-- `a(args...) = x`. -/
def Chunked.put {α : Type} (a : Chunked α) (idx : List Nat) (x : α) : Res (Chunked α) :=
  (a.locate idx).map fun p =>
    let data := a.chunks.data.modify p.1 (setInChunk p.2 x)
    { a with chunks := { a.chunks with data := data } }

/-- `scalar_computed_assign(e, f)`, used by `a += x` — chunk/xchunked_assign.hpp:242-251: every element of every chunk. -/
def Chunked.scalarAssign {α : Type} (f : α → α) (a : Chunked α) : Chunked α :=
  let data := a.chunks.data.map fun (c : Buf α) => { c with data := c.data.map f }
  { a with chunks := { a.chunks with data := data } }

/-! ### Chunk iterator -/

/-- `xchunk_iterator` — members at chunk/xchunked_assign.hpp:185-188; a slice `range(a, b)` is a pair. -/
structure ChunkIt where
  index : List Nat
  linear : Nat
  slices : List (Nat × Nat)
  deriving DecidableEq, Repr

/-- What `fill_slice_vector(i)` stores — chunk/xchunked_assign.hpp:366-375. -/
def fillSlice (shape cshape : List Nat) (i k : Nat) : Nat × Nat :=
  (k * cshape.getD i 0, min ((k + 1) * cshape.getD i 0) (shape.getD i 0))

/-- Constructor — chunk/xchunked_assign.hpp:273-284. -/
def chunkIt (shape cshape index : List Nat) (linear : Nat) : ChunkIt :=
  ⟨index, linear, (List.range index.length).map fun i => fillSlice shape cshape i (index.getD i 0)⟩

/-- `chunk_begin()` — chunk/xchunked_array.hpp:560-565. -/
def chunkBegin (shape cshape : List Nat) : ChunkIt := chunkIt shape cshape (List.replicate shape.length 0) 0

/-- Loop of `operator++` — chunk/xchunked_assign.hpp:291-306, from the last axis on. -/
def chunkIncLoop (shape cshape grid : List Nat) : Nat → List Nat → List (Nat × Nat) → List Nat × List (Nat × Nat)
  | 0, index, slices => (index, slices)
  | i + 1, index, slices =>
    if index.getD i 0 + 1 = grid.getD i 0 then
      chunkIncLoop shape cshape grid i (index.set i 0) (slices.set i (fillSlice shape cshape i 0))
    else (index.set i (index.getD i 0 + 1), slices.set i (fillSlice shape cshape i (index.getD i 0 + 1)))

/-- `operator++` — chunk/xchunked_assign.hpp:286-310. -/
def chunkInc (shape cshape grid : List Nat) (it : ChunkIt) : ChunkIt :=
  let size := grid.foldl (· * ·) 1
  let p := if it.linear + 1 ≠ size then chunkIncLoop shape cshape grid shape.length it.index it.slices
    else (it.index, it.slices)
  ⟨p.1, it.linear + 1, p.2⟩

/-- `get_slice_vector()` as slices. -/
def ChunkIt.sv (it : ChunkIt) : List USlice :=
  it.slices.map fun (p : Nat × Nat) => .range (some (p.1 : Int)) (some (p.2 : Int)) none

/-- `get_chunk_slice_vector()` — chunk/xchunked_assign.hpp:350-364. -/
def ChunkIt.chunkSv (shape cshape : List Nat) (it : ChunkIt) : List USlice :=
  (List.range it.index.length).map fun (i : Nat) =>
    .range (some 0) (some ((min (cshape.getD i 0) (shape.getD i 0 - it.index.getD i 0 * cshape.getD i 0) : Nat) : Int)) none

/-- The loop `for (it = chunk_begin(); it != chunk_end(); ++it)`; iterators compare by their linear index.  The first
argument bounds the number of turns. -/
def chunkLoop {σ : Type} (shape cshape grid : List Nat) (body : ChunkIt → σ → Res σ) : Nat → ChunkIt → σ → Res σ
  | 0, _, _ => .ub
  | fuel + 1, it, s =>
    if it.linear = grid.foldl (· * ·) 1 then .ok s
    else (body it s).bind fun s => chunkLoop shape cshape grid body fuel (chunkInc shape cshape grid it) s

/-- The whole loop. -/
def forChunks {σ : Type} (shape cshape grid : List Nat) (body : ChunkIt → σ → Res σ) (s : σ) : Res σ :=
  chunkLoop shape cshape grid body (grid.foldl (· * ·) 1 + 1) (chunkBegin shape cshape) s

/-- `chunks().begin() + i` — chunk/xchunked_assign.hpp:117-121: the iterator traverses in row-major order whatever the
layout of the grid. -/
def gridPos {α : Type} (g : Buf α) (i : Nat) : Res Nat :=
  (orUb (rowIndices g.shape)[i]?).bind g.elementPos

/-- A strided view of a container, read at an index. -/
def viewAt {α : Type} [Inhabited α] (e : Buf α) (v : SView) (q : List Nat) : α := e.mem (v.index (toInts q))

/-- `noalias(c) = rhs` for a container `c` and a right-hand side of shape `sh` — core/xsemantic.hpp:657-663. -/
def assignWhole {α : Type} (c : Buf α) (sh : List Nat) (val : List Nat → α) : Buf α :=
  ⟨sh, c.layout, (storageIndices c.layout sh).map val⟩

/-- Body of the loop of `assign_xexpression` — chunk/xchunked_assign.hpp:211-222. -/
def chunkAssignStep {α : Type} [Inhabited α] (e : Buf α) (it : ChunkIt) (a : Chunked α) : Res (Chunked α) :=
  (stridedView e.shape e.strides 0 e.layout it.sv).bind fun rhs =>
  (gridPos a.chunks it.linear).bind fun k =>
    (orUb a.chunks.data[k]?).bind fun c =>
      let rs := rhs.shape.map Int.toNat
      (if rs ≠ a.chunkShape then assignRegion c (it.chunkSv a.shape a.chunkShape) rs (viewAt e rhs)
       else .ok (assignWhole c rs (viewAt e rhs))).map fun c =>
        let data := a.chunks.data.set k c
        { a with chunks := { a.chunks with data := data } }

/-- `assign_xexpression(e)` — chunk/xchunked_assign.hpp:203-225, for a container `e`. -/
def chunkAssign {α : Type} [Inhabited α] (e : Buf α) (a : Chunked α) : Res (Chunked α) :=
  forChunks a.shape a.chunkShape a.chunks.shape (chunkAssignStep e) a

/-- `xchunked_array(e, chunks, chunk_shape, layout)`, also `a = e` with the chunk shape of `a` —
chunk/xchunked_array.hpp:403-415, chunk/xchunked_assign.hpp:195-201. -/
def chunkedFrom {α : Type} [Inhabited α] (gl cl : Layout) (x : α) (e : Buf α) (cshape : List Nat) : Res (Chunked α) :=
  (chunkedResize gl cl x e.shape cshape).bind (chunkAssign e)

/-- `as_chunked(out, chunk_shape) = e` for a container `e` — chunk/xchunked_view.hpp:150-162. -/
def chunkedViewAssign {α : Type} [Inhabited α] (cshape : List Nat) (e out : Buf α) : Res (Buf α) :=
  (gridShape out.shape cshape).bind fun g =>
    forChunks out.shape cshape g (fun it out =>
      (stridedView e.shape e.strides 0 e.layout it.sv).bind fun rhs =>
        assignRegion out it.sv (rhs.shape.map Int.toNat) (viewAt e rhs)) out

/-- Body of the loop of `as_chunked(out) = a` — chunk/xchunked_view.hpp:175-198. -/
def chunkedViewStep {α : Type} [Inhabited α] (a : Chunked α) (it : ChunkIt) (out : Buf α) : Res (Buf α) :=
  (stridedView out.shape out.strides 0 out.layout it.sv).bind fun el1 =>
  (gridPos a.chunks it.linear).bind fun k =>
    (orUb a.chunks.data[k]?).bind fun el2 =>
      let ls := el1.shape.map Int.toNat
      if ls ≠ el2.shape then
        (stridedView el2.shape el2.strides 0 el2.layout
          (ls.map fun (n : Nat) => .range (some 0) (some (n : Int)) none)).bind fun rhs =>
            assignRegion out it.sv (rhs.shape.map Int.toNat) (viewAt el2 rhs)
      else assignRegion out it.sv el2.shape el2.read

/-- `as_chunked(out) = a` for a chunked array `a` — chunk/xchunked_view.hpp:164-200. -/
def chunkedViewAssignChunked {α : Type} [Inhabited α] (a : Chunked α) (out : Buf α) : Res (Buf α) :=
  if a.chunkShape.length ≠ out.shape.length then .ub
  else (gridShape out.shape a.chunkShape).bind fun g =>
    forChunks out.shape a.chunkShape g (chunkedViewStep a) out

end Xt
