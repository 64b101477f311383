import Verif.Model.View
import Verif.Model.ContigView
import Verif.Model.StridedView
import Verif.Model.AssignFail
/-!
# Model: views that are kept while their array changes

A view refers to the array and keeps what it computed when it was built: the bound slices and the shape; a strided view also
strides and offset.  An `xview` computes its strides and its offset when they are first asked for, from the array of that moment,
and keeps them.  A contiguous `xview` without ranges has windows on the shape and on the strides of the array instead, and keeps
its offset.

Simplified: one `xarray` with a static layout and its views; allocations succeed, expressions do not throw and do not read the
array (C88, C100).
-/

namespace Xt
open Spec

variable {α : Type}

/-- Data members of a view. -/
inductive Kept
  /-- `m_slices`, `m_shape` and, once `m_strides_computed`, `m_strides` and `m_data_offset` — views/xview.hpp:671-677. -/
  | x (S : List Sl) (shape : List Int) (cache : Option (List Int × Int))
  /-- The same for a contiguous view without ranges: `m_shape` and `m_strides` are `sequence_view`s of those of the array, and
  `m_data_offset` was computed by the constructor — views/xview.hpp:245-279, 412-420, 889-903. -/
  | c (S : List Sl) (offset : Int)
  /-- `m_shape`, `m_strides`, `m_offset`, `m_layout` — views/xstrided_view_base.hpp:206-212. -/
  | s (v : SView)
  deriving DecidableEq, Repr

/-- The array and the views of it. -/
structure KWorld (α : Type) where
  c : Cont α
  views : List Kept

/-- `operator()(args...)` of an `xview`: leading arguments beyond its own dimension `dim` are dropped, the others go through the slices —
views/xview.hpp:1583-1590, 1630-1657, core/xaccessible.hpp:147-153. -/
def keptAccess (S : List Sl) (dim : Nat) (args : List Int) : Option (List Int) :=
  let args := args.drop (args.length - dim)
  (List.range (args.length + integralCount S - newaxisCount S)).mapM (viewIndexAt S args)

/-- `compute_strides(false_type)` with the current dimension and strides of the array and the shape of the view —
views/xview.hpp:1536-1571. -/
def keptStrides (c : Cont α) (S : List Sl) (shape : List Int) : List Int :=
  List.zipWith (fun (s : Int) st => if s = 1 then 0 else st) shape
    ((List.range shape.length).map fun i =>
      if i < S.length - integralCount S then
        let k := integralSkip S i
        let a := k - newaxisCountBefore S k
        ((S[k]?).elim 0 (fun s => s.stepSize 1 1)) * (if a < c.shape.length then c.strides.getD a 0 else 1)
      else c.strides.getD (i + integralCount S - newaxisCount S) 0)

/-- The strides and the offset that are kept, or are computed now — views/xview.hpp:1267-1290, 1335-1345. -/
def keptData (c : Cont α) (S : List Sl) (shape : List Int) (cache : Option (List Int × Int)) : List Int × Int :=
  cache.getD (keptStrides c S shape, viewDataOffset c.strides 0 S)

/-- `shape()` — views/xview.hpp:954-958, containers/xstorage.hpp:1741-1917. -/
def keptShape (c : Cont α) : Kept → List Int
  | .x _ shape _ => shape
  | .c S _ => toInts (withoutInts c.L S c.shape)
  | .s v => v.shape

/-- Position in the storage of the element that `v(args...)` refers to: an `xview` asks the array, whose strides are those of
now; a strided view has its own — views/xview.hpp:1020-1028, views/xstrided_view_base.hpp:441-449, 661-667. -/
def keptPos (c : Cont α) (v : Kept) (args : List Int) : Option Int :=
  match v with
  | .x S shape _ => (keptAccess S shape.length args).map (dataOffset c.strides false)
  | .c S _ => (keptAccess S (withoutInts c.L S c.shape).length args).map (dataOffset c.strides false)
  | .s v => some (v.index args)

/-- Position that is reached with `data()`, `data_offset()` and `strides()` — views/xview.hpp:1267-1345. -/
def keptDataPos (c : Cont α) (v : Kept) (args : List Int) : Int :=
  match v with
  | .x S shape cache => (keptData c S shape cache).2 + dot (keptData c S shape cache).1 args
  | .c S offset => offset + dot (withoutInts c.L S c.strides) args
  | .s v => v.index args

/-- An element of the storage; none outside of it. -/
def atPos (c : Cont α) (p : Option Int) : Option α :=
  match p with
  | none => none
  | some p => if p < 0 then none else c.storage[p.toNat]?

/-- A write to the storage; undefined outside of it. -/
def putPos (c : Cont α) (p : Option Int) (a : α) : Out (Cont α) :=
  match p with
  | none => .ub
  | some p => if 0 ≤ p ∧ p.toNat < c.storage.length then .ok { c with storage := c.storage.set p.toNat a } else .ub

/-- What happens to the array and its views. -/
inductive KEvent (α : Type)
  /-- `auto v = view(a, slices...)`. -/
  | view (us : List USlice)
  /-- `auto v = strided_view(a, slices)`. -/
  | strided (us : List USlice)
  /-- `v.strides()`, `v.backstrides()`, `v.data_offset()`, and what uses them. -/
  | ask (k : Nat)
  /-- `a(idx...) = x`. -/
  | put (idx : List Nat) (x : α)
  /-- `v(idx...) = x`. -/
  | putView (k : Nat) (idx : List Nat) (x : α)
  /-- `a.resize(shape, force)`. -/
  | resize (s : List Nat) (force : Bool)
  /-- `a.reshape(shape)` — the layout is the static one. -/
  | reshape (s : List Nat)
  /-- `a = e`. -/
  | assign (s : List Nat) (f : List Nat → α)
  /-- `a = b`. -/
  | copy (b : Cont α)

/-- The world with another array. -/
def KWorld.lift (w : KWorld α) (o : Out (Cont α)) : Out (KWorld α) :=
  match o with
  | .ok c => .ok { w with c := c }
  | .throws c => .throws { w with c := c }
  | .ub => .ub

/-- One event.  For the kept view — views/xview.hpp:880-912, 1823-1831, views/xstrided_view.hpp:789-810,
views/xstrided_view_base.hpp:312-331. -/
def KEvent.run (g : FCfg α) (w : KWorld α) : KEvent α → Out (KWorld α)
  | .view us => match makeView w.c.shape us with
    | .ok S => .ok { w with views := w.views ++
        [if trivialStrides w.c.L none S then .c S (viewDataOffset w.c.strides 0 S) else .x S (viewShape w.c.shape S) none] }
    | .throws => .throws w
    | .ub => .ub
  | .strided us => match stridedView w.c.shape w.c.strides 0 w.c.layout us with
    | .ok v => .ok { w with views := w.views ++ [.s v] }
    | .throws => .throws w
    | .ub => .ub
  | .ask k => match w.views[k]? with
    | some (.x S shape cache) => .ok { w with views := w.views.set k (.x S shape (some (keptData w.c S shape cache))) }
    | some _ => .ok w
    | none => .ub
  | .put idx x => w.lift (putPos w.c (some (dataOffset w.c.strides false (toInts idx))) x)
  | .putView k idx x => match w.views[k]? with
    | some v => w.lift (putPos w.c (keptPos w.c v (toInts idx)) x)
    | none => .ub
  | .resize s force => w.lift (w.c.resize g.d g.fresh true s force)
  | .reshape s => w.lift (w.c.reshapeUnsigned g.d s w.c.L)
  | .assign s f => w.lift (directF g true w.c ⟨some s, fun i => some (f i)⟩)
  | .copy b => w.lift (copyF true w.c b)

/-- A history that goes on after exceptions. -/
def kRun (g : FCfg α) : List (KEvent α) → KWorld α → Option (KWorld α)
  | [], w => some w
  | e :: r, w => match e.run g w with
    | .ok w => kRun g r w
    | .throws w => kRun g r w
    | .ub => none

end Xt
