import Verif.Model.Assign
import Verif.Model.Sort
import Verif.Model.Adapt
import Verif.Model.IntArith
/-!
# Model of lazy random expressions: `generators/xrandom.hpp`, the `xgenerator` that holds them and their assignment

A random expression draws each time an element is read, so reading is a computation on the state of the engines and
distributions.  A function whose operands draw reads them in an order that the language leaves open.
-/

namespace Xt

open Spec

/-- Expressions with random operands.  `read`: any operand that does not draw, with its shape and elements; `rnd`:
`random::rand(shape)` and the other distributions, `draw` is `m_dist(m_engine)` on the state `σ` of engines and
distributions — generators/xrandom.hpp:205-243; `un`, `bin`: `xfunction`s; `bcast`: `broadcast(e, shape)`. -/
inductive REx (σ β : Type)
  | read (s : List Nat) (g : List Nat → β)
  | rnd (s : List Nat) (draw : σ → β × σ)
  | un (f : β → β) (e : REx σ β)
  | bin (f : β → β → β) (a b : REx σ β)
  | bcast (e : REx σ β) (s : List Nat)

variable {σ β : Type}

/-- The index at which an operand of shape `s` is read when the expression is read at `idx`: trailing axes, 0 where
the extent is 1 — core/xstrides.hpp:372-386, core/xiterator.hpp:962-1000 (this is C54). -/
def ownIndex (s idx : List Nat) : List Nat :=
  List.zipWith (fun n i => if n = 1 then 0 else i) s (idx.drop (idx.length - s.length))

/-- One read of the element at `idx`: `*m_rhs`, `operator()`, `element` — generators/xrandom.hpp:216-226 (any index
draws), generators/xgenerator.hpp:276-325, core/xfunction.hpp:640-700, 1030-1070.  The operands of a function are
arguments of one call, read in any order: `swap` tells which comes first.  A broadcast reads its operand
(views/xbroadcast.hpp:395-460). -/
def REx.eval (swap : σ → Bool) : REx σ β → List Nat → σ → β × σ
  | .read s g, idx, st => (g (ownIndex s idx), st)
  | .rnd _ draw, _, st => draw st
  | .un f e, idx, st =>
    let r := e.eval swap idx st
    (f r.1, r.2)
  | .bin f a b, idx, st =>
    if swap st then
      let y := b.eval swap idx st
      let x := a.eval swap idx y.2
      (f x.1 y.1, x.2)
    else
      let x := a.eval swap idx st
      let y := b.eval swap idx x.2
      (f x.1 y.1, y.2)
  | .bcast e _, idx, st => e.eval swap idx st

/-- The expression as far as shapes are concerned. -/
def REx.toEx : REx σ β → Ex Unit
  | .read s _ => .gen s fun _ => ()
  | .rnd s _ => .gen s fun _ => ()
  | .un _ e => .fn (fun _ => ()) (.cons e.toEx .nil)
  | .bin _ a b => .fn (fun _ => ()) (.cons a.toEx (.cons b.toEx .nil))
  | .bcast e s => .bcast e.toEx s

/-- Reads at the indices of a list, one after the other. -/
def REx.evals (swap : σ → Bool) (e : REx σ β) : List (List Nat) → σ → List β × σ
  | [], st => ([], st)
  | i :: is, st =>
    let r := e.eval swap i st
    let t := e.evals swap is r.2
    (r.1 :: t.1, t.2)

/-- The loop of `random_impl::assign_to` over a storage of `n` elements — generators/xrandom.hpp:228-237. -/
def fillDraws (draw : σ → β × σ) : Nat → σ → List β × σ
  | 0, st => ([], st)
  | n + 1, st =>
    let r := draw st
    let t := fillDraws draw n r.2
    (r.1 :: t.1, t.2)

/-- `xarray<T, L> a = e`, `a = e` — core/xassign.hpp:214-225.  A generator by itself fills the storage
(generators/xgenerator.hpp:376-383); any other expression takes the stepper loop in the order of the layout of the
destination (core/xassign.hpp:652-667), since an `xgenerator` has no linear assignment and no strides
(generators/xgenerator.hpp:140, 352-356).  Simplified: a container of row-major or column-major layout stores its
elements in the order of that loop (C22, C24). -/
def REx.assignTo (swap : σ → Bool) (L : Layout) (e : REx σ β) (st : σ) : Res (Buf β × σ) :=
  match e with
  | .rnd s draw =>
    let r := fillDraws draw (s.foldl (· * ·) 1) st
    .ok (⟨s, L, r.1⟩, r.2)
  | e => match resizeInfo e.toEx with
    | none => .throws
    | some (sh, _) =>
      let r := e.evals swap (storageIndices L sh) st
      .ok (⟨sh, L, r.1⟩, r.2)

/-- `view = e` for a view of the shape `sh` of the expression: `assign_data`, always the stepper loop, in the order of
the view's assignable layout `L` (row-major for views of dynamic layout) — core/xsemantic.hpp:700-707, 745-770,
core/xassign.hpp:652-667.  The elements written, with their indices in the view. -/
def REx.assignView (swap : σ → Bool) (L : Layout) (sh : List Nat) (e : REx σ β) (st : σ) :
    List (List Nat × β) × σ :=
  let r := e.evals swap (storageIndices L sh) st
  ((storageIndices L sh).zip r.1, r.2)

/-! ### Integers -/

/-- The parameters `randint(shape, lower, upper)` gives to `std::uniform_int_distribution<T>` —
generators/xrandom.hpp:300-308.  `T(upper - 1)` is computed in the promoted type; the distribution requires
`a <= b`. -/
def randintBounds (t : IntKind) (lower upper : Int) : Res (Int × Int) :=
  match intOp .sub t ⟨32, true⟩ upper 1 with
  | none => .ub
  | some b => if lower ≤ t.conv b then .ok (lower, t.conv b) else .ub

/-! ### Adapted memory -/

/-- Assignment of a generator with `assign_to` (random numbers, `arange`, `linspace`) to adapted storage without a temporary
(`noalias(a) = e`, core/xsemantic.hpp:510-514, 657-663): the resize is
inside a `noexcept` function — generators/xgenerator.hpp:376-383.  Only the change of the storage is modelled. -/
def generatorResize (v : β) (a : AStore β) (sh : List Nat) : Ending (AStore β) :=
  insideNoexcept (a.resize v (sh.foldl (· * ·) 1))

/-- The same for an expression without `assign_to` — core/xassign.hpp:482-488. -/
def expressionResize (v : β) (a : AStore β) (sh : List Nat) : Ending (AStore β) :=
  match a.resize v (sh.foldl (· * ·) 1) with
  | .ok s => .returns s
  | .throws => .throws
  | .ub => .undefined

end Xt
