import Verif.Model.Chunked
import Verif.Spec.Svector
/-!
# Model: the small vector (`svector`, containers/xstorage.hpp:633-1420)

A vector is the block it uses, inline (`m_data`) or on the heap, and how many elements of the block are in use.  The
block's cells have values also beyond the elements in use; what a fresh heap block holds is arbitrary (`junk`).  The
algorithms of the standard library (`std::fill`, `std::copy`, `std::move`, `std::move_backward`,
`std::uninitialized_copy`) are taken by their specification, and are undefined when they would write beyond the block.

Elements are values: constructors and destructors of the element type do nothing that matters here.  For a class type
the code also assigns to cells that hold no object yet, which is undefined.  An allocation does not fail.
-/

namespace Xt

/-- `m_begin == &m_data[0]`, the cells from `m_begin` to `m_capacity`, and `m_end - m_begin` —
    containers/xstorage.hpp:758-764. -/
structure SVec (α : Type) where
  onStack : Bool
  cells : List α
  size : Nat
  deriving DecidableEq, Repr

/-- An element passed by reference: an object elsewhere, or an element of the vector itself. -/
inductive SArg (α : Type)
  | val (x : α)
  | own (k : Nat)

/-- The number of cells of the inline block: `m_data[N > 0 ? N : 1]` — containers/xstorage.hpp:764. -/
def inlineCells (N : Nat) : Nat := if N > 0 then N else 1

/-- Write the elements `l` to the cells from `p` on. -/
def copyInto {α : Type} (c : List α) (p : Nat) (l : List α) : Res (List α) :=
  if p + l.length ≤ c.length then .ok (c.take p ++ l ++ c.drop (p + l.length)) else .ub

/-- The cells from `a` up to, not including, `b`. -/
def cellsOf {α : Type} (c : List α) (a b : Nat) : List α := (c.take b).drop a

/-- `std::move(a, b, d)`: the destination may overlap the source only from the left. -/
def stdMove {α : Type} (c : List α) (a b d : Nat) : Res (List α) :=
  if a ≤ b ∧ b ≤ c.length ∧ d ≤ a then copyInto c d (cellsOf c a b) else .ub

/-- `std::move_backward(a, b, e)`: the destination ends at `e` and may overlap the source only from the right. -/
def stdMoveBackward {α : Type} (c : List α) (a b e : Nat) : Res (List α) :=
  if a ≤ b ∧ b ≤ e ∧ b ≤ c.length then copyInto c (e - (b - a)) (cellsOf c a b) else .ub

namespace SVec
variable {α : Type}

/-- `capacity()` — containers/xstorage.hpp:998-1001. -/
def capacity (v : SVec α) : Nat := v.cells.length

/-- The elements from `begin()` to `end()`. -/
def toList (v : SVec α) : List α := v.cells.take v.size

/-- A default-constructed vector, whose inline cells hold anything — containers/xstorage.hpp:758-789. -/
def empty (junk : Nat → α) (N : Nat) : SVec α := ⟨true, (List.range (inlineCells N)).map junk, 0⟩

/-- `grow(min_capacity)` — containers/xstorage.hpp:1325-1358. -/
def grow (junk : Nat → α) (v : SVec α) (minCapacity : Nat) : SVec α :=
  let newCapacity := 2 * v.size + 1
  let newCapacity := if newCapacity < minCapacity then minCapacity else newCapacity
  ⟨false, v.cells.take v.size ++ (List.range (newCapacity - v.size)).map junk, v.size⟩

/-- `if (n > N && n > capacity()) grow(n)` — containers/xstorage.hpp:904-907, 923-926, 979-982, 1006-1009. -/
def ensure (junk : Nat → α) (N : Nat) (v : SVec α) (n : Nat) : SVec α :=
  if n > N ∧ n > v.capacity then v.grow junk n else v

/-- The value of an element that was passed by reference to vector `v`, read after `v` became `w` by growing, or not:
    growing frees a heap block, but the inline block stays as it was. -/
def deref (v : SVec α) (grown : Bool) : SArg α → Res α
  | .val x => .ok x
  | .own k => if k < v.size ∧ ¬ (grown = true ∧ v.onStack = false) then orUb v.cells[k]? else .ub

/-- `assign(n, v)` — containers/xstorage.hpp:901-911. -/
def assignFill (junk : Nat → α) (N : Nat) (v : SVec α) (n : Nat) (elt : SArg α) : Res (SVec α) :=
  let w := v.ensure junk N n
  (v.deref (decide (n > N ∧ n > v.capacity)) elt).bind fun x =>
    (copyInto w.cells 0 (List.replicate n x)).map fun c => ⟨w.onStack, c, n⟩

/-- `assign(first, last)` — containers/xstorage.hpp:919-930; also the constructors and assignments from a list, an
    iterator range, another vector and a vector of another inline capacity — containers/xstorage.hpp:805-898. -/
def assignList (junk : Nat → α) (N : Nat) (v : SVec α) (l : List α) : Res (SVec α) :=
  let w := v.ensure junk N l.length
  (copyInto w.cells 0 l).map fun c => ⟨w.onStack, c, l.length⟩

/-- `resize(n)`; `init` is the template parameter and `z` is `T()` — containers/xstorage.hpp:976-989. -/
def resize (junk : Nat → α) (N : Nat) (init : Bool) (z : α) (v : SVec α) (n : Nat) : Res (SVec α) :=
  let w := v.ensure junk N n
  if n ≤ w.capacity then
    if init = true ∧ w.size < n then
      (copyInto w.cells w.size (List.replicate (n - w.size) z)).map fun c => ⟨w.onStack, c, n⟩
    else .ok ⟨w.onStack, w.cells, n⟩
  else .ub

/-- `reserve(n)` — containers/xstorage.hpp:1003-1010. -/
def reserve (junk : Nat → α) (N : Nat) (v : SVec α) (n : Nat) : SVec α := v.ensure junk N n

/-- `push_back(elt)` — containers/xstorage.hpp:1024-1032. -/
def pushBack (junk : Nat → α) (v : SVec α) (elt : SArg α) : Res (SVec α) :=
  let full := decide (v.size ≥ v.capacity)
  let w := if full then v.grow junk 0 else v
  (v.deref full elt).bind fun x =>
    (copyInto w.cells w.size [x]).map fun c => ⟨w.onStack, c, w.size + 1⟩

/-- `pop_back()` — containers/xstorage.hpp:1044-1048. -/
def popBack (v : SVec α) : Res (SVec α) :=
  if v.size = 0 then .ub else .ok ⟨v.onStack, v.cells, v.size - 1⟩

/-- `erase(it)` with `it = begin() + p` — containers/xstorage.hpp:1174-1182. -/
def erase (v : SVec α) (p : Nat) : Res (SVec α) :=
  (stdMove v.cells (p + 1) v.size p).map fun c => ⟨v.onStack, c, v.size - 1⟩

/-- `erase(first, last)` — containers/xstorage.hpp:1184-1198. -/
def eraseRange (v : SVec α) (a b : Nat) : Res (SVec α) :=
  if a ≤ b then
    if b = v.size then .ok ⟨v.onStack, v.cells, a⟩
    else (stdMove v.cells b v.size a).map fun c => ⟨v.onStack, c, a + (v.size - b)⟩
  else .ub

/-- Where the element inserted at `p` is read, once the elements from `p` on have moved by one: from the block `c`
    after the move if it is an element of that block, from where it was otherwise —
    containers/xstorage.hpp:1221-1227. -/
def insertSource (v : SVec α) (c : List α) (grown : Bool) (p : Nat) : SArg α → Res α
  | .val x => .ok x
  | .own k =>
    if grown then v.deref true (.own k)
    else if k < v.size then orUb (if p ≤ k ∧ k < v.size + 1 then c[k + 1]? else c[k]?)
    else .ub

/-- `insert(it, elt)` with `it = begin() + p` — containers/xstorage.hpp:1200-1229. -/
def insert (junk : Nat → α) (v : SVec α) (p : Nat) (elt : SArg α) : Res (SVec α) :=
  if p = v.size then v.pushBack junk elt
  else
    let full := decide (v.size ≥ v.capacity)
    let w := if full then v.grow junk 0 else v
    (orUb w.cells[w.size - 1]?).bind fun last =>
      (copyInto w.cells w.size [last]).bind fun c =>
        (stdMoveBackward c p (w.size - 1) w.size).bind fun c =>
          (v.insertSource c full p elt).bind fun x =>
            (copyInto c p [x]).map fun c => ⟨w.onStack, c, w.size + 1⟩

/-- `insert(pos, first, last)` of elements stored elsewhere — containers/xstorage.hpp:1231-1251. -/
def insertList (junk : Nat → α) (v : SVec α) (p : Nat) (l : List α) : Res (SVec α) :=
  if l.length > 0 then
    let w := if l.length > v.capacity - v.size then v.grow junk (v.capacity + l.length) else v
    (stdMoveBackward w.cells p w.size (w.size + l.length)).bind fun c =>
      (copyInto c p l).map fun c => ⟨w.onStack, c, w.size + l.length⟩
  else .ok v

/-- `v[p] = x` — containers/xstorage.hpp:932-936. -/
def setAt (v : SVec α) (p : Nat) (x : α) : Res (SVec α) :=
  if p < v.size then (copyInto v.cells p [x]).map fun c => ⟨v.onStack, c, v.size⟩ else .ub

/-- `at(idx)` — containers/xstorage.hpp:944-961. -/
def at' (v : SVec α) (p : Nat) : Res α := if p ≥ v.size then .throws else orUb v.cells[p]?

/-- `for (i = 0; i < min_size; ++i) swap((*this)[i], rhs[i])` — containers/xstorage.hpp:1304-1308. -/
def swapFirst (a b : List α) : Nat → List α × List α
  | 0 => (a, b)
  | n + 1 =>
    let r := swapFirst a b n
    match r.1[n]?, r.2[n]? with
    | some x, some y => (r.1.set n y, r.2.set n x)
    | _, _ => r

/-- `swap(rhs)` of two different vectors that are not both on the heap: the smaller one is resized, then the elements are
    exchanged — containers/xstorage.hpp:1290-1321. -/
def swapElements (junk : Nat → α) (N : Nat) (init : Bool) (z : α) (v w : SVec α) : Res (SVec α × SVec α) :=
  (if w.size > v.size then v.resize junk N init z w.size else .ok v).bind fun v' =>
    (if v.size > w.size then w.resize junk N init z v.size else .ok w).bind fun w' =>
      let m := min v.size w.size
      let r := swapFirst v'.cells w'.cells m
      if v.size > w.size then
        (copyInto r.2 m (cellsOf r.1 m v'.size)).map fun c => (⟨v'.onStack, r.1, m⟩, ⟨w'.onStack, c, w'.size⟩)
      else if w.size > v.size then
        (copyInto r.1 m (cellsOf r.2 m w'.size)).map fun c => (⟨v'.onStack, c, v'.size⟩, ⟨w'.onStack, r.2, m⟩)
      else .ok (⟨v'.onStack, r.1, v'.size⟩, ⟨w'.onStack, r.2, w'.size⟩)

/-- `swap(rhs)` of two different vectors — containers/xstorage.hpp:1272-1322.  The two vectors have the same inline
    capacity: with another one the code does not compile, as it compares `this` with `&rhs` and names private members
    of another class. -/
def swapWith (junk : Nat → α) (N : Nat) (init : Bool) (z : α) (v w : SVec α) : Res (SVec α × SVec α) :=
  if v.onStack = false ∧ w.onStack = false then .ok (w, v)
  else v.swapElements junk N init z w

/-- `operator==` — containers/xstorage.hpp:1372-1376. -/
def eq' [DecidableEq α] (v w : SVec α) : Bool := decide (v.size = w.size) && decide (v.toList = w.toList)

end SVec

open Spec (SeqOp)

/-- Replace vector `i` of a collection by the outcome of a member function. -/
def onVec {α : Type} (vs : List (SVec α)) (i : Nat) (f : SVec α → Res (SVec α)) : Res (List (SVec α)) :=
  (orUb vs[i]?).bind fun v => (f v).map fun v' => vs.set i v'

/-- Call the member function an operation stands for.  A move assignment copies, as `copy` does
    (containers/xstorage.hpp:849-855), and a move construction swaps with an empty vector
    (containers/xstorage.hpp:894-898). -/
def svecStep {α : Type} (junk : Nat → α) (N : Nat) (init : Bool) (z : α) (vs : List (SVec α)) :
    SeqOp α → Res (List (SVec α))
  | .push i x => onVec vs i fun v => v.pushBack junk (.val x)
  | .pop i => onVec vs i fun v => v.popBack
  | .resize i n => onVec vs i fun v => v.resize junk N init z n
  | .reserve i n => onVec vs i fun v => .ok (v.reserve junk N n)
  | .clear i => onVec vs i fun v => v.resize junk N init z 0
  | .assignFill i n x => onVec vs i fun v => v.assignFill junk N n (.val x)
  | .assignList i l => onVec vs i fun v => v.assignList junk N l
  | .copy i j => onVec vs i fun v => (orUb vs[j]?).bind fun w => v.assignList junk N w.toList
  | .swap i j =>
    (orUb vs[i]?).bind fun v => (orUb vs[j]?).bind fun w =>
      if i = j then .ok vs
      else (v.swapWith junk N init z w).map fun r => (vs.set i r.1).set j r.2
  | .insert i p x => onVec vs i fun v => v.insert junk p (.val x)
  | .insertList i p l => onVec vs i fun v => v.insertList junk p l
  | .erase i p => onVec vs i fun v => v.erase p
  | .eraseRange i a b => onVec vs i fun v => v.eraseRange a b
  | .set i p x => onVec vs i fun v => v.setAt p x

/-- A history of calls. -/
def svecRun {α : Type} (junk : Nat → α) (N : Nat) (init : Bool) (z : α) :
    List (SVec α) → List (SeqOp α) → Res (List (SVec α))
  | vs, [] => .ok vs
  | vs, op :: ops => (svecStep junk N init z vs op).bind fun vs' => svecRun junk N init z vs' ops

end Xt
