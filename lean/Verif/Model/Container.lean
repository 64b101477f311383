import Verif.Model.Strides
/-!
# Model of `containers/xcontainer.hpp` (`xstrided_container`): construction, resize, reshape

`XTENSOR_DEFAULT_LAYOUT` is a parameter `d`.  `XTENSOR_ASSERT` is a no-op (default build).
-/

namespace Xt

/-- Data members of an `xarray`/`xtensor`: the static layout `L` (template parameter), and
`m_layout`, `m_shape`, `m_strides`, `m_backstrides` (containers/xcontainer.hpp:325-329) and
`m_storage`. -/
structure Cont (α : Type u) where
  L : Layout
  layout : Layout
  shape : List Nat
  strides : List Int
  backstr : List Int
  storage : List α
  deriving Repr, DecidableEq

/-- Outcome of a mutating member function: normal return or exception, each with the state the
object is left in, or undefined behaviour. -/
inductive Out (σ : Type u)
  | ok (s : σ)
  | throws (s : σ)
  | ub
  deriving Repr, DecidableEq

namespace Cont
variable {α : Type u}

/-- `size()` — containers/xcontainer.hpp:368-372. -/
def size (c : Cont α) : Nat :=
  if c.L ≠ .dynamic then c.storage.length else computeSize c.shape

/-- `operator()(args...)` as an access into the storage — containers/xcontainer.hpp:438-445;
`none` is an access outside the storage. -/
def elem? (c : Cont α) (args : List Int) : Option α :=
  let o := dataOffset c.strides false args
  if o < 0 then none else c.storage[o.toNat]?

/-- Default constructor of an `n`-dimensional container — containers/xcontainer.hpp:850-857,
containers/xtensor.hpp:415-420 (`n` static), containers/xarray.hpp:280-285 (`n = 0`): shape,
strides and backstrides are `n` zeros, storage holds one value if `n = 0`, none otherwise. -/
def default (L : Layout) (n : Nat) (v : α) : Cont α :=
  { L := L, layout := L, shape := List.replicate n 0, strides := List.replicate n 0,
    backstr := List.replicate n 0, storage := if n = 0 then [v] else [] }

/-- `resize_data_container` — containers/xcontainer.hpp:968-972, containers/xstorage.hpp:217-228
(`uvector::resize_impl`): nothing when the size is unchanged, otherwise a fresh buffer whose
contents `fresh n` are unspecified. -/
def resizeStorage (fresh : Nat → List α) (s : List α) (n : Nat) : List α :=
  if n ≠ s.length then fresh n else s

/-- `resize(shape, force)` — containers/xcontainer.hpp:1000-1021.  `alloc = false` models a
`std::bad_alloc` thrown by the storage: shape and strides are already written by then. -/
def resize (d : Layout) (fresh : Nat → List α) (alloc : Bool) (c : Cont α) (shape : List Nat)
    (force : Bool) : Out (Cont α) :=
  if c.shape ≠ shape ∨ force = true then
    let layout := if c.L = .dynamic ∧ c.layout = .dynamic then d else c.layout
    let r := computeStrides c.L layout shape
    let c' : Cont α := { c with layout := layout, shape := shape, strides := r.1,
                                backstr := backstrides shape r.1 }
    if alloc then .ok { c' with storage := resizeStorage fresh c.storage r.2.toNat }
    else .throws c'
  else .ok c

/-- `resize(shape, l)` — containers/xcontainer.hpp:1030-1047. -/
def resizeLayout (d : Layout) (fresh : Nat → List α) (alloc : Bool) (c : Cont α) (shape : List Nat)
    (l : Layout) : Out (Cont α) :=
  if c.L ≠ .dynamic ∧ l ≠ c.L then .throws c
  else resize d fresh alloc { c with layout := l } shape true

/-- `resize(shape, strides)` — containers/xcontainer.hpp:1056-1077. -/
def resizeStrides (fresh : Nat → List α) (alloc : Bool) (c : Cont α) (shape : List Nat)
    (strides : List Int) : Out (Cont α) :=
  if c.L ≠ .dynamic then .throws c
  else
    let st := adaptStrides shape strides
    let c' : Cont α := { c with shape := shape, strides := st, backstr := backstrides shape st,
                                layout := .dynamic }
    if alloc then .ok { c' with storage := resizeStorage fresh c.storage (computeSize shape) }
    else .throws c'

/-- `reshape_impl(shape, false_type, layout)` (unsigned extents) —
containers/xcontainer.hpp:1114-1140. -/
def reshapeUnsigned (d : Layout) (c : Cont α) (shape : List Nat) (l : Layout) : Out (Cont α) :=
  if computeSize shape ≠ c.size then .throws c
  else
    let l' := if c.L = .dynamic ∧ l = .dynamic then d else l
    if c.L ≠ .dynamic ∧ l' ≠ c.L then .throws c
    else
      let r := computeStrides c.L l' shape
      .ok { c with layout := l', shape := shape, strides := r.1, backstr := backstrides shape r.1 }

/-- Index of the last negative entry, `dflt` when there is none — the loop at
containers/xcontainer.hpp:1157-1166 (`neg_idx`). -/
def negIdx (dflt i : Nat) : List Int → Nat
  | [] => dflt
  | x :: xs => negIdx (if x < 0 then i else dflt) (i + 1) xs

/-- `reshape_impl(shape, true_type, layout)` (signed extents) —
containers/xcontainer.hpp:1142-1183.  `size() % new_size` with `new_size = 0` is undefined.  The
accumulator is an unbounded integer here. -/
def reshapeSigned (c : Cont α) (shape : List Int) (l : Layout) : Out (Cont α) :=
  let newSize := computeSizeSigned shape
  if newSize = 0 then .ub
  else if c.size % newSize ≠ 0 then .throws c
  else
    let acc := shape.foldl (· * ·) 1
    if ¬ acc < 0 ∧ c.size ≠ newSize then .throws c
    else
      let sh := if acc < 0 then shape.set (negIdx 0 0 shape) ((c.size : Int).tdiv (acc.natAbs : Int))
                else shape
      let sh' := sh.map toSizeT
      let r := computeStrides c.L l sh'
      .ok { c with layout := l, shape := sh', strides := r.1, backstr := backstrides sh' r.1 }

/-- `is_contiguous()` for an ordinary storage — containers/xcontainer.hpp:930-962. -/
def isContiguous (c : Cont α) : Bool :=
  match c.layout with
  | .row_major => match c.strides.reverse.find? (· ≠ 0) with
    | none => true
    | some s => s == 1
  | .column_major => match c.strides.find? (· ≠ 0) with
    | none => true
    | some s => s == 1
  | _ => c.strides.isEmpty

end Cont

/-- Shape-changing calls on a container. -/
inductive Op
  | resize (shape : List Nat) (force : Bool)
  | resizeLayout (shape : List Nat) (l : Layout)
  | resizeStrides (shape : List Nat) (strides : List Int)
  | reshapeU (shape : List Nat) (l : Layout)
  | reshapeS (shape : List Int) (l : Layout)

/-- Effect of one call with all allocations succeeding. -/
def Op.run {α : Type u} (d : Layout) (fresh : Nat → List α) (c : Cont α) : Op → Out (Cont α)
  | .resize s f => c.resize d fresh true s f
  | .resizeLayout s l => c.resizeLayout d fresh true s l
  | .resizeStrides s st => c.resizeStrides fresh true s st
  | .reshapeU s l => c.reshapeUnsigned d s l
  | .reshapeS s l => c.reshapeSigned s l

/-- State after a history of calls, each of which may have thrown (the caller catches and goes on);
`none` once undefined behaviour has occurred. -/
def runOps {α : Type u} (d : Layout) (fresh : Nat → List α) (c : Cont α) : List Op → Option (Cont α)
  | [] => some c
  | o :: os =>
    match o.run d fresh c with
    | .ok c' => runOps d fresh c' os
    | .throws c' => runOps d fresh c' os
    | .ub => none

end Xt
