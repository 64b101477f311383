import Verif.Model.Expr
/-!
# Model of `xview_stepper` — views/xview.hpp:1933-2294

Views that are not strided (a `keep` or `drop` slice, or a parent without strides, such as a lazy
expression) are traversed by `xview_stepper`: a stepper `m_it` of the parent together with
`m_index_keeper`, one counter per slice.  The state is `none` once an array has been indexed outside
its bounds (undefined behaviour).  Step counts and counters are `size_type` and wrap around; they are
integers here, a negative one standing for the wrapped value.
-/

namespace Xt

/-- `xt::value(slice, i)` — views/xslice.hpp:896-907 with `Sl.value`; `xkeep_slice::operator()`
(1432-1435) indexes its list unchecked. -/
def Sl.valueChk (s : Sl) (i : Int) : Option Int :=
  match s with
  | .keep l => if l.length = 1 ∨ (0 ≤ i ∧ i < l.length) then some (s.value i) else none
  | s => some (s.value i)

/-- `step_size(slice, i, n)` — views/xslice.hpp:872-892 and the members of the slices (`xrange`
1102-1105, `xstepped_range` 1182-1185, `xall` 1254-1257, `xnewaxis` 1320-1323, `xkeep_slice`
1444-1458, `xdrop_slice` 1619-1629), for counters that may have wrapped. -/
def Sl.stepChk (s : Sl) (i n : Int) : Option Int :=
  match s with
  | .int _ => some 0
  | .range _ _ => some n
  | .stepped _ _ step => some (step * n)
  | .all _ => some n
  | .newaxis => some 0
  | .keep l => if l.length = 1 then some 0
    else if 0 ≤ i ∧ i < l.length then
      if i + n < 0 ∨ i + n ≥ l.length then some (l.getLastD 0 - l.getD i.toNat 0 + 1)
      else some (l.getD (i + n).toNat 0 - l.getD i.toNat 0)
    else none
  | .drop sz _ => if i + n < 0 ∨ i + n ≥ sz then some (s.value (sz - 1) - s.value i + 1)
    else some (s.value (i + n) - s.value i)

variable {σ : Type}

/-- State of `xview_stepper`: `m_it` and `m_index_keeper` — views/xview.hpp:835-838. -/
abbrev VState (σ : Type) := Option (σ × List Int)

/-- A move of `m_it` along axis `a` of the parent, whose steppers index their strides with `a`
unchecked (core/xiterator.hpp:490-513). -/
def subMove (ush : List Nat) (f : σ → Nat → Int → σ) (it : σ) (a : Nat) (n : Int) : Option σ :=
  if a < ush.length then some (f it a n) else none

/-- The loop of the constructor for the beginning — views/xview.hpp:2009-2028; `a` is
`i - newaxis_count_before(i)`. -/
def viewBeginLoop (sub : StepOps σ) (ush : List Nat) : List Sl → Nat → σ → Option σ
  | [], _, it => some it
  | s :: S, a, it => if s.isNew then viewBeginLoop sub ush S a it
    else do
      let v ← s.valueChk 0
      let it ← subMove ush sub.step it a v
      viewBeginLoop sub ush S (a + 1) it

/-- `stepper_begin(shape)` — views/xview.hpp:1933-1946, 1996-2028; `it` is
`m_e.stepper_begin(m_e.shape())`. -/
def viewBegin (sub : StepOps σ) (ush : List Nat) (S : List Sl) (it : σ) : VState σ :=
  (viewBeginLoop sub ush S 0 it).map fun it => (it, List.replicate S.length 0)

/-- The first loop of `to_end_impl` — views/xview.hpp:2124-2135: the remaining slices with their
counters; `a` is `i - newaxis_count_before(i)`. -/
def viewEndLoop (sub : StepOps σ) (ush : List Nat) : List Sl → List Int → Nat → σ →
    Option (σ × List Int)
  | s :: S, k :: kp, a, it => if s.isNew then
      (viewEndLoop sub ush S kp a it).map fun r => (r.1, k :: r.2)
    else do
      let v ← s.valueChk (s.size - 1)
      let it ← subMove ush sub.stepBack it a ((ush.getD a 0 : Nat) - 1 - v : Int)
      let r ← viewEndLoop sub ush S kp (a + 1) it
      some (r.1, (s.size - 1) :: r.2)
  | _, _, _, it => some (it, [])

/-- Increment the counter of the first slice that is not a newaxis — views/xview.hpp:2147-2157. -/
def bumpFirst : List Sl → List Int → List Int
  | s :: S, k :: kp => if s.isNew then k :: bumpFirst S kp else (k + 1) :: kp
  | _, kp => kp

/-- `to_end_impl(l)` — views/xview.hpp:2113-2162.  The exception for layouts that are neither row
nor column major counts as undefined here. -/
def viewEndImpl (sub : StepOps σ) (ush : List Nat) (S : List Sl) (l : Layout) (it : σ)
    (kp : List Int) : VState σ :=
  (viewEndLoop sub ush S kp 0 it).bind fun r =>
    if l = .row_major then some (r.1, (bumpFirst S.reverse r.2.reverse).reverse)
    else if l = .column_major then some (r.1, bumpFirst S r.2)
    else none

/-- `stepper_end(shape, l)` — views/xview.hpp:1948-1961, 2029-2033; `it` is
`m_e.stepper_end(m_e.shape(), l)`.  The counters of newaxes are left uninitialised by the code, and
never read; they are 0 here. -/
def viewEnd (sub : StepOps σ) (ush : List Nat) (S : List Sl) (l : Layout) (it : σ) : VState σ :=
  viewEndImpl sub ush S l it (List.replicate S.length 0)

/-- `common_step_forward(dim, n, f)` — views/xview.hpp:2166-2209 (both overloads).  Note that `dim` is
compared with `m_offset` but not reduced by it. -/
def viewStepFwd (sub : StepOps σ) (ush : List Nat) (S : List Sl) (offset : Nat) (st : VState σ)
    (dim : Nat) (n : Int) : VState σ :=
  st.bind fun p =>
    if dim ≥ offset then
      let index := integralSkip S dim
      match S[index]? with
      | some s => if s.isNew then some p else do
          let m ← s.stepChk (p.2.getD dim 0) n
          let it ← subMove ush sub.step p.1 (index - newaxisCountBefore S index) m
          some (it, p.2.set dim (p.2.getD dim 0 + n))
      | none => (subMove ush sub.step p.1 (index - newaxisCountBefore S index) n).map fun it =>
          (it, p.2)
    else some p

/-- `common_step_backward(dim, n, f)` — views/xview.hpp:2211-2256 (both overloads). -/
def viewStepBwd (sub : StepOps σ) (ush : List Nat) (S : List Sl) (offset : Nat) (st : VState σ)
    (dim : Nat) (n : Int) : VState σ :=
  st.bind fun p =>
    if dim ≥ offset then
      let index := integralSkip S dim
      match S[index]? with
      | some s => if s.isNew then some p else do
          let m ← s.stepChk (p.2.getD dim 0 - n) n
          let it ← subMove ush sub.stepBack p.1 (index - newaxisCountBefore S index) m
          some (it, p.2.set dim (p.2.getD dim 0 - n))
      | none => (subMove ush sub.stepBack p.1 (index - newaxisCountBefore S index) n).map fun it =>
          (it, p.2)
    else some p

/-- `common_reset(dim, f, backwards)` — views/xview.hpp:2258-2291; `shape()[dim]` is read
unchecked.  There is no comparison with `m_offset`. -/
def viewReset (ush : List Nat) (S : List Sl) (f : σ → Nat → Int → σ) (backwards : Bool)
    (st : VState σ) (dim : Nat) : VState σ :=
  st.bind fun p =>
    let index := integralSkip S dim
    match S[index]? with
    | some s => if s.isNew then some p else do
        let last ← s.valueChk (s.size - 1)
        let first ← s.valueChk 0
        let it ← subMove ush f p.1 (index - newaxisCountBefore S index) (last - first)
        some (it, p.2.set dim (if backwards then s.size - 1 else 0))
    | none => do
        let ext ← (viewShape ush S)[dim]?
        let it ← subMove ush f p.1 (index - newaxisCountBefore S index) (ext - 1)
        some (it, p.2.set dim (if backwards then ext - 1 else 0))

/-- `xview_stepper` over a parent of shape `ush` whose stepper is `sub` — views/xview.hpp:2036-2110. -/
def viewOps (sub : StepOps σ) (ush : List Nat) (S : List Sl) (offset : Nat) : StepOps (VState σ) where
  step := viewStepFwd sub ush S offset
  stepBack := viewStepBwd sub ush S offset
  reset := viewReset ush S sub.stepBack false
  resetBack := viewReset ush S sub.step true
  toBegin st := st.map fun p => (sub.toBegin p.1, p.2.map fun _ => 0)
  toEnd st l := st.bind fun p => viewEndImpl sub ush S l (sub.toEnd p.1 l) p.2

variable {α : Type}

/-- `for (it = v.begin<L>(sh); it != v.end<L>(sh); ++it) *it` for `v = view(e, ...)` with bound slices
`S`, `ush` the shape of `e`.  `none`: undefined. -/
def viewValues (e : Ex α) (ush : List Nat) (S : List Sl) (L : Layout) (sh : List Nat) :
    List (Option α) :=
  let sub := e.ops ush.length
  let ops := viewOps sub ush S (sh.length - viewDim ush S)
  (XIter.walk ops L sh (XIter.mkEnd (viewEnd sub ush S L (e.stEnd ush.length L)) L sh)
    (sh.foldl (· * ·) 1 + 1) (XIter.mkBegin (viewBegin sub ush S e.stBegin) sh)).map
      fun st => st.map fun p => e.deref p.1

/-- `for (it = v.rbegin<L>(sh); it != v.rend<L>(sh); ++it) *it`. -/
def viewRValues (e : Ex α) (ush : List Nat) (S : List Sl) (L : Layout) (sh : List Nat) :
    List (Option α) :=
  let sub := e.ops ush.length
  let ops := viewOps sub ush S (sh.length - viewDim ush S)
  (XIter.walkBack ops L sh (XIter.mkBegin (viewBegin sub ush S e.stBegin) sh)
    (sh.foldl (· * ·) 1 + 1) (XIter.mkEnd (viewEnd sub ush S L (e.stEnd ush.length L)) L sh)).map
      fun st => st.map fun p => e.deref p.1

end Xt
