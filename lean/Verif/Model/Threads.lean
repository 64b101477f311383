import Verif.Model.Broadcast
import Verif.Model.Strides
import Verif.Spec.Index
/-!
# Model: constant expressions used by several threads

Two classes change members in `const` functions: `xfunction` keeps its shape (`m_cache`, core/xfunction.hpp:400) and `xview` its
strides and offset (views/xview.hpp:674-677).  Neither uses a lock or an atomic.  A thread is a sequence of reads and writes of
these members; between two of them any other thread may act.  The elements and shapes of containers are constant meanwhile.

Simplified: a member of list type is read and written as a whole, and the change of one entry is a read followed by a write.
Two conflicting accesses are races in the model only if they are in the code, and each order of accesses of the model is one of
the code.
-/

namespace Xt
open Spec

/-- The members that `const` functions change. -/
inductive CField
  | shapeReady | shape | trivial | stridesReady | strides | backstrides | offset
  deriving DecidableEq

/-- A member of the expression at a place of the tree, given by the operand numbers on the way. -/
abbrev CLoc := List Nat × CField

/-- What a member holds. -/
inductive CVal
  | flag (b : Bool)
  | nats (l : List Nat)
  | ints (l : List Int)
  | pos (o : Int)
  deriving DecidableEq

def CVal.getFlag : CVal → Bool
  | .flag b => b
  | _ => false

def CVal.getNats : CVal → List Nat
  | .nats l => l
  | _ => []

def CVal.getInts : CVal → List Int
  | .ints l => l
  | _ => []

def CVal.getPos : CVal → Int
  | .pos o => o
  | _ => 0

abbrev CMem := CLoc → CVal

def CMem.upd (σ : CMem) (l : CLoc) (v : CVal) : CMem := fun x => if x = l then v else σ x

/-- What a thread still has to do. -/
inductive Act (ρ : Type)
  | ret (r : ρ)
  | rd (l : CLoc) (k : CVal → Act ρ)
  | wr (l : CLoc) (v : CVal) (k : Act ρ)

def Act.bind {ρ τ : Type} : Act ρ → (ρ → Act τ) → Act τ
  | .ret r, f => f r
  | .rd l k, f => .rd l fun v => (k v).bind f
  | .wr l v k, f => .wr l v (k.bind f)

/-- One step of one of the threads. -/
inductive ThStep {ρ : Type} : CMem × List (Act ρ) → CMem × List (Act ρ) → Prop
  | rd {σ : CMem} {ts : List (Act ρ)} {i : Nat} {l : CLoc} {k : CVal → Act ρ} (h : ts[i]? = some (.rd l k)) :
      ThStep (σ, ts) (σ, ts.set i (k (σ l)))
  | wr {σ : CMem} {ts : List (Act ρ)} {i : Nat} {l : CLoc} {v : CVal} {k : Act ρ} (h : ts[i]? = some (.wr l v k)) :
      ThStep (σ, ts) (σ.upd l v, ts.set i k)

/-- What a thread does next to the members: where, and whether it writes. -/
def Act.access {ρ : Type} : Act ρ → Option (CLoc × Bool)
  | .ret _ => none
  | .rd l _ => some (l, false)
  | .wr l _ _ => some (l, true)

/-- Two threads are about to access one member and one of them writes it: undefined behaviour. -/
def Race {ρ : Type} (c : CMem × List (Act ρ)) : Prop :=
  ∃ (i j : Nat) (a b : Act ρ) (l : CLoc) (w w' : Bool), i ≠ j ∧ c.2[i]? = some a ∧ c.2[j]? = some b ∧
    a.access = some (l, w) ∧ b.access = some (l, w') ∧ (w || w') = true

/-- What a thread does when it is alone: the members afterwards and its result. -/
def Act.alone {ρ : Type} : Act ρ → CMem → CMem × ρ
  | .ret r, σ => (σ, r)
  | .rd l k, σ => (k (σ l)).alone σ
  | .wr l v k, σ => k.alone (σ.upd l v)

/-! ## Expressions -/

/-- An expression over constant operands: containers (shape, strides, elements by index and by position in the storage),
scalars, strided views of containers with the strides, backstrides and offset that `compute_strides` finds (C19), functions. -/
inductive TExpr (α : Type)
  | var (shape : List Nat) (strides : List Int) (elem : List Nat → α) (flat : Int → α)
  | scalar (x : α)
  | view (shape : List Nat) (strides backstrides : List Int) (offset : Int) (elem : List Nat → α) (flat : Int → α)
  | fn (f : List α → α) (args : List (TExpr α))

variable {α : Type}

/-- The expression at a place. -/
def TExpr.sub : TExpr α → List Nat → Option (TExpr α)
  | e, [] => some e
  | .fn _ args, k :: q => match args[k]? with
    | none => none
    | some a => a.sub q
  | _, _ :: _ => none

mutual
/-- `dimension()` — core/xfunction.hpp:570-574, 927-937; views and containers: the length of a constant shape. -/
def TExpr.dimension : TExpr α → List Nat → Act Nat
  | .var s _ _ _, _ => .ret s.length
  | .scalar _, _ => .ret 0
  | .view s _ _ _ _ _, _ => .ret s.length
  | .fn _ args, p => .rd (p, .shapeReady) fun b =>
      if b.getFlag then .rd (p, .shape) fun s => .ret s.getNats.length else TExpr.dimensions args p 0
/-- `compute_dimension()`; operand `k` and later ones. -/
def TExpr.dimensions : List (TExpr α) → List Nat → Nat → Act Nat
  | [], _, _ => .ret 0
  | e :: es, p, k => (TExpr.dimension e (p ++ [k])).bind fun d => (TExpr.dimensions es p (k + 1)).bind fun m => .ret (max d m)
end

mutual
/-- `e.broadcast_shape(m_cache.shape)`, the cache being that of the function at `root`; `none` is the exception —
core/xfunction.hpp:717-733, views/xview.hpp:1383-1388, core/xstrides.hpp:733-776.  What a throwing call has written already is
left out. -/
def TExpr.broadcastInto (root : List Nat) : TExpr α → Act (Option Bool)
  | .var s _ _ _ => .rd (root, .shape) fun o => match broadcastShape s o.getNats with
    | none => .ret none
    | some r => .wr (root, .shape) (.nats r.1) (.ret (some r.2))
  | .scalar _ => .ret (some true)
  | .view s _ _ _ _ _ => .rd (root, .shape) fun o => match broadcastShape s o.getNats with
    | none => .ret none
    | some r => .wr (root, .shape) (.nats r.1) (.ret (some r.2))
  | .fn _ args => TExpr.broadcastsInto root args true
/-- The operands, one after the other. -/
def TExpr.broadcastsInto (root : List Nat) : List (TExpr α) → Bool → Act (Option Bool)
  | [], b => .ret (some b)
  | e :: es, b => (TExpr.broadcastInto root e).bind fun t => match t with
    | none => .ret none
    | some t => TExpr.broadcastsInto root es (t && b)
end

/-- The part of `xfunction::shape` before the reference is returned: `compute_cached_shape` unless the flag is set; false is the
exception — core/xfunction.hpp:576-600. -/
def ensureShape (args : List (TExpr α)) (p : List Nat) : Act Bool :=
  .rd (p, .shapeReady) fun b =>
    if b.getFlag then .ret true
    else (TExpr.dimensions args p 0).bind fun d =>
      .wr (p, .shape) (.nats (uninitializedShape d))
        ((TExpr.broadcastsInto p args true).bind fun t => match t with
          | none => .ret false
          | some t => .wr (p, .trivial) (.flag t) (.wr (p, .shapeReady) (.flag true) (.ret true)))

/-- `shape()`, and reading what the reference refers to. -/
def TExpr.readShape : TExpr α → List Nat → Act (Option (List Nat))
  | .var s _ _ _, _ => .ret (some s)
  | .scalar _, _ => .ret (some [])
  | .view s _ _ _ _ _, _ => .ret (some s)
  | .fn _ args, p => (ensureShape args p).bind fun ok =>
      if ok then .rd (p, .shape) fun s => .ret (some s.getNats) else .ret none

/-- Loop of `compute_strides` over the axes — views/xview.hpp:1557-1568. -/
def fillStrides (p : List Nat) (st bk : List Int) : List Nat → Act Unit
  | [] => .ret ()
  | i :: is => .rd (p, .strides) fun s => .wr (p, .strides) (.ints (s.getInts.set i (st.getD i 0)))
      (.rd (p, .backstrides) fun b => .wr (p, .backstrides) (.ints (b.getInts.set i (bk.getD i 0))) (fillStrides p st bk is))

/-- The part of `strides()`, `backstrides()` and `data_offset()` of a view before they return — views/xview.hpp:1264-1288,
1333-1345, 1548-1571. -/
def ensureStrides (p : List Nat) (st bk : List Int) (off : Int) : Act Unit :=
  .rd (p, .stridesReady) fun b =>
    if b.getFlag then .ret ()
    else .wr (p, .strides) (.ints (List.replicate st.length 0)) (.wr (p, .backstrides) (.ints (List.replicate bk.length 0))
      ((fillStrides p st bk (List.range st.length)).bind fun _ =>
        .wr (p, .offset) (.pos off) (.wr (p, .stridesReady) (.flag true) (.ret ()))))

/-- `strides()` of containers and views, and reading what the reference refers to; other expressions have none. -/
def TExpr.readStrides : TExpr α → List Nat → Act (List Int)
  | .var _ st _ _, _ => .ret st
  | .view _ st bk off _ _, p => (ensureStrides p st bk off).bind fun _ => .rd (p, .strides) fun s => .ret s.getInts
  | _, _ => .ret []

mutual
/-- `operator()` and `element`, which use no cache — core/xfunction.hpp:868-900, views/xview.hpp:1027-1080. -/
def TExpr.call : TExpr α → List Nat → α
  | .var _ _ el _, idx => el idx
  | .scalar x, _ => x
  | .view _ _ _ _ el _, idx => el idx
  | .fn f args, idx => f (TExpr.calls args idx)
def TExpr.calls : List (TExpr α) → List Nat → List α
  | [], _ => []
  | e :: es, idx => TExpr.call e idx :: TExpr.calls es idx
end

mutual
/-- `data_element(i)`, and one lane of `load_simd` — core/xfunction.hpp:902-915, views/xview.hpp:1484-1505. -/
def TExpr.dataElement : TExpr α → List Nat → Nat → Act α
  | .var _ _ _ fl, _, i => .ret (fl i)
  | .scalar x, _, _ => .ret x
  | .view _ st bk off _ fl, p, i => (ensureStrides p st bk off).bind fun _ => .rd (p, .offset) fun o => .ret (fl (o.getPos + i))
  | .fn f args, p, i => (TExpr.dataElements args p 0 i).bind fun xs => .ret (f xs)
def TExpr.dataElements : List (TExpr α) → List Nat → Nat → Nat → Act (List α)
  | [], _, _, _ => .ret []
  | e :: es, p, k, i => (TExpr.dataElement e (p ++ [k]) i).bind fun x => (TExpr.dataElements es p (k + 1) i).bind fun xs =>
      .ret (x :: xs)
end

mutual
/-- `has_linear_assign(strides)` — core/xfunction.hpp:735-749, views/xview.hpp:1395-1407, containers/xcontainer.hpp:626-635. -/
def TExpr.hasLinear (str : List Int) : TExpr α → List Nat → Act Bool
  | .var _ st _ _, _ => .ret (decide (st = str))
  | .scalar _, _ => .ret true
  | .view _ st bk off _ _, p => (ensureStrides p st bk off).bind fun _ => .rd (p, .strides) fun s =>
      .ret (decide (s.getInts = str))
  | .fn _ args, p => TExpr.hasLinears str args p 0 true
def TExpr.hasLinears (str : List Int) : List (TExpr α) → List Nat → Nat → Bool → Act Bool
  | [], _, _, b => .ret b
  | e :: es, p, k, b =>
    if b then (TExpr.hasLinear str e (p ++ [k])).bind fun t => TExpr.hasLinears str es p (k + 1) t
    else TExpr.hasLinears str es p (k + 1) false
end

mutual
/-- The element at `idx` through steppers: each view gives its offset to its stepper and its strides to each step —
views/xview.hpp:1409-1419, 1573-1640, core/xiterator.hpp:870-960.  Here both are read once per element. -/
def TExpr.stepElement : TExpr α → List Nat → List Nat → Act α
  | .var _ st _ fl, _, idx => .ret (fl (dataOffset st false (toInts idx)))
  | .scalar x, _, _ => .ret x
  | .view _ st bk off _ fl, p, idx => (ensureStrides p st bk off).bind fun _ => .rd (p, .offset) fun o =>
      (ensureStrides p st bk off).bind fun _ => .rd (p, .strides) fun s =>
        .ret (fl (o.getPos + dataOffset s.getInts false (toInts idx)))
  | .fn f args, p, idx => (TExpr.stepElements args p 0 idx).bind fun xs => .ret (f xs)
def TExpr.stepElements : List (TExpr α) → List Nat → Nat → List Nat → Act (List α)
  | [], _, _, _ => .ret []
  | e :: es, p, k, idx => (TExpr.stepElement e (p ++ [k]) idx).bind fun x => (TExpr.stepElements es p (k + 1) idx).bind fun xs =>
      .ret (x :: xs)
end

mutual
/-- `broadcast_shape` into a local shape. -/
def TExpr.sh : TExpr α → ShExpr
  | .var s _ _ _ => .leaf s
  | .scalar _ => .scalar
  | .view s _ _ _ _ _ => .leaf s
  | .fn _ args => .fn (TExpr.shs args)
def TExpr.shs : List (TExpr α) → List ShExpr
  | [] => []
  | e :: es => TExpr.sh e :: TExpr.shs es
end

/-- `xexpression_assigner::resize` up to the destination: shape and triviality, `none` is the exception —
core/xassign.hpp:571-607, core/xfunction.hpp:717-733. -/
def TExpr.resizeShape : TExpr α → List Nat → Act (Option (List Nat × Bool))
  | .fn f args, p => (TExpr.dimension (.fn f args) p).bind fun d => .rd (p, .shapeReady) fun b =>
      if b.getFlag then .rd (p, .shape) fun s => .rd (p, .trivial) fun t => .ret (some (s.getNats, t.getFlag))
      else .ret ((TExpr.fn f args).sh.bc (uninitializedShape d))
  | .var s _ _ _, _ => .ret (some (s, true))
  | .scalar _, _ => .ret (some ([], true))
  | .view s _ _ _ _ _, _ => .ret (some (s, true))

/-- A list of actions, one after the other. -/
def Act.all {ρ β : Type} (f : β → Act ρ) : List β → Act (List ρ)
  | [] => .ret []
  | b :: bs => (f b).bind fun x => (Act.all f bs).bind fun xs => .ret (x :: xs)

/-- `xarray<T, L> r = e`, as far as `e` is concerned: the shape and the elements, in the order of the loop —
core/xassign.hpp:268-274, 439-487.  `static` says that both sides have one contiguous layout by their types, so that the strides
are not compared. -/
def TExpr.assign (static : Bool) (L : Layout) (e : TExpr α) (p : List Nat) : Act (Option (List Nat × List α)) :=
  (e.resizeShape p).bind fun r => match r with
    | none => .ret none
    | some (s, trivial) =>
      (if trivial then if static then .ret true else e.hasLinear (computeStrides L L s).1 p else .ret false).bind fun linear =>
        if linear then (Act.all (fun i => e.dataElement p i) (List.range (numel s))).bind fun xs => .ret (some (s, xs))
        else (Act.all (fun idx => e.stepElement p idx) (if L = .column_major then colIndices s else rowIndices s)).bind fun xs => .ret (some (s, xs))

/-- What a thread can ask of an expression it holds by constant reference.  `loop is` is the share of a worker of the parallel
flat loop with batches (the other one makes its iterators before the workers start) — core/xassign.hpp:720-770. -/
inductive Req
  | dimension
  | shape
  | strides
  | call (idx : List Nat)
  | loop (is : List Nat)
  | assign (static : Bool) (L : Layout)

/-- The answer; `none` inside is an exception. -/
inductive Ans (α : Type)
  | dim (n : Nat)
  | shape (s : Option (List Nat))
  | strides (st : List Int)
  | vals (xs : List α)
  | array (r : Option (List Nat × List α))

/-- A request for the expression at place `p`. -/
def Req.run (e : TExpr α) (p : List Nat) : Req → Act (Ans α)
  | .dimension => (e.dimension p).bind fun d => .ret (.dim d)
  | .shape => (e.readShape p).bind fun s => .ret (.shape s)
  | .strides => (e.readStrides p).bind fun s => .ret (.strides s)
  | .call idx => .ret (.vals [e.call idx])
  | .loop is => (Act.all (fun i => e.dataElement p i) is).bind fun xs => .ret (.vals xs)
  | .assign st L => (e.assign st L p).bind fun r => .ret (.array r)

/-- A thread: requests for expressions at places of the tree `e`, one after the other; a place that does not exist answers
nothing. -/
def thread (e : TExpr α) : List (List Nat × Req) → Act (List (Ans α))
  | [] => .ret []
  | (p, r) :: rs => match e.sub p with
    | none => thread e rs
    | some n => (r.run n p).bind fun a => (thread e rs).bind fun as => .ret (a :: as)

/-- The members after construction: no shape is known — core/xfunction.hpp:53-60; a view knows its strides if they are those of
its container (`has_trivial_strides`, here `known`) — views/xview.hpp:889-912. -/
def TExpr.initial (e : TExpr α) (known : List Nat → Bool) : CMem := fun l =>
  match e.sub l.1, l.2 with
  | some (.view _ st _ _ _ _), .strides => if known l.1 then .ints st else .ints []
  | some (.view _ _ bk _ _ _), .backstrides => if known l.1 then .ints bk else .ints []
  | some (.view _ _ _ off _ _), .offset => if known l.1 then .pos off else .pos 0
  | some (.view _ _ _ _ _ _), .stridesReady => .flag (known l.1)
  | _, .shape => .nats []
  | _, _ => .flag false

end Xt
