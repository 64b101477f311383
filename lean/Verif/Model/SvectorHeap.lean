import Verif.Model.Svector
import Verif.Model.Storage
import Verif.Spec.SvectorHeap
/-!
# Model: small vectors and the blocks they own, when memory can be missing (`svector`, containers/xstorage.hpp:633-1420)

Model/Svector.lean says what the member functions do with the cells of the block in use.  Here the block is inside the vector or on
the heap of Model/Storage.lean, and each statement is told whether memory can be had; it asks for memory at most once.  A function
first grows the vector if it has to, then goes on as in Model/Svector.lean, where it finds room; if it changed the block again that
would count as undefined (it never does, C102_step).

Simplified: the inline cells of a vector on the heap, which are not used any more, are left out.  A capacity that is not the size of
the block counts as undefined.  For elements of class type the bodies of the functions are not modelled (they assign to cells without
an object, see Model/Svector.lean); `growHeap` and the destructor are.
-/

namespace Xt
open Spec

/-- `m_allocator`, `m_begin` (`none`: inline), `m_data`, `m_capacity - m_begin`, `m_end - m_begin` —
    containers/xstorage.hpp:756-764. -/
structure HVec (α : Type) where
  alloc : Nat
  block : Option Nat
  inl : List (Option α)
  cap : Nat
  size : Nat
  deriving DecidableEq, Repr

/-- All vectors and the heap. -/
structure HWorld (α : Type) where
  heap : List (Block α)
  vars : List (Option (HVec α))
  deriving DecidableEq, Repr

/-- Outcome of a statement; `terminated`: an exception left a function declared not to throw. -/
inductive HOut (α : Type)
  | done (w : HWorld α)
  | threw (w : HWorld α)
  | terminated
  | ub
  deriving DecidableEq, Repr

section
variable {α : Type}

/-- The vector as Model/Svector.lean sees it. -/
def HVec.view (h : List (Block α)) (v : HVec α) : Res (SVec (Option α)) :=
  match v.block with
  | none => if v.cap = v.inl.length then .ok ⟨true, v.inl, v.size⟩ else .ub
  | some p => (blockCells h p).bind fun c => if v.cap = c.length then .ok ⟨false, c, v.size⟩ else .ub

/-- The vector and the heap after the cells and the size were changed. -/
def HVec.store (h : List (Block α)) (v : HVec α) (s : SVec (Option α)) : List (Block α) × HVec α :=
  match v.block with
  | none => (h, { v with inl := s.cells, size := s.size })
  | some p => (setCells h p s.cells, { v with size := s.size })

/-- A default-constructed vector: `m_data` are default-initialised objects — containers/xstorage.hpp:758-789. -/
def HVec.fresh (e : StoreEnv α) (N a : Nat) : HVec α :=
  ⟨a, none, List.replicate (inlineCells N) (if e.trivial then none else some e.init), inlineCells N, 0⟩

/-- `grow(min_capacity)` when there is memory — containers/xstorage.hpp:1325-1358: the old elements are not destroyed. -/
def growHeap (e : StoreEnv α) (h : List (Block α)) (v : HVec α) (m : Nat) : Res (List (Block α) × HVec α) :=
  (v.view h).bind fun s =>
    let n := 2 * v.size + 1
    let n := if n < m then m else n
    let (h, p) := allocate h v.alloc n
    (uninitializedCopy e h p s.toList).bind fun h =>
      (match v.block with
        | none => Res.ok h
        | some q => deallocate e h v.alloc q v.cap).map fun h => (h, ⟨v.alloc, some p, [], n, v.size⟩)

/-- `if (n > N && n > capacity()) grow(n)` — containers/xstorage.hpp:904-907, 923-926, 979-982, 1006-1009. -/
def roomFor {β : Type} (N n : Nat) (s : SVec β) : Option Nat := if n > N ∧ n > s.capacity then some n else none

/-- `if (m_end >= m_capacity) grow()` — containers/xstorage.hpp:1026-1029, 1036-1039, 1210-1215. -/
def roomForOne {β : Type} (s : SVec β) : Option Nat := if s.size ≥ s.capacity then some 0 else none

/-- Grow if the function has to; `none` when `allocate` throws, which is the first thing `grow` does. -/
def makeRoom (e : StoreEnv α) (mem : Bool) (h : List (Block α)) (v : HVec α) (need : SVec (Option α) → Option Nat) :
    Res (Option (List (Block α) × HVec α)) :=
  (v.view h).bind fun s =>
    match need s with
    | none => .ok (some (h, v))
    | some m => if mem then (growHeap e h v m).map some else .ok none

/-- The rest of the function, in the block there is. -/
def inPlace (h : List (Block α)) (v : HVec α) (body : SVec (Option α) → Res (SVec (Option α))) :
    Res (List (Block α) × HVec α) :=
  (v.view h).bind fun s => (body s).bind fun s' =>
    if s'.onStack = s.onStack ∧ s'.cells.length = s.cells.length then .ok (v.store h s') else .ub

/-- The vector with name `k`. -/
def HWorld.get (w : HWorld α) (k : Nat) : Res (HVec α) :=
  match w.vars[k]? with
  | some (some v) => .ok v
  | _ => .ub

/-- Call a function on vector `k`. -/
def HWorld.call (e : StoreEnv α) (mem : Bool) (w : HWorld α) (k : Nat) (need : SVec (Option α) → Option Nat)
    (body : SVec (Option α) → Res (SVec (Option α))) : HOut α :=
  match w.get k with
  | .ok v => match makeRoom e mem w.heap v need with
    | .ok (some r) => match inPlace r.1 r.2 body with
      | .ok r => .done ⟨r.1, w.vars.set k (some r.2)⟩
      | _ => .ub
    | .ok none => .threw w
    | _ => .ub
  | _ => .ub

/-- When a member function grows the vector, and to what — containers/xstorage.hpp:902-930, 977-1041, 1201-1215, 1232-1243. -/
def memberNeed {β : Type} (N : Nat) : SeqOp β → SVec β → Option Nat
  | .push _ _, s => roomForOne s
  | .resize _ n, s => roomFor N n s
  | .reserve _ n, s => roomFor N n s
  | .clear _, s => roomFor N 0 s
  | .assignFill _ n _, s => roomFor N n s
  | .assignList _ l, s => roomFor N l.length s
  | .insert _ _ _, s => roomForOne s
  | .insertList _ _ l, s => if l.length > 0 ∧ l.length > s.capacity - s.size then some (s.capacity + l.length) else none
  | _, _ => none

/-- What it does then: Model/Svector.lean. -/
def memberBody (N : Nat) (init : Bool) (z : Option α) : SeqOp (Option α) → SVec (Option α) → Res (SVec (Option α))
  | .push _ x, s => s.pushBack (fun _ => none) (.val x)
  | .pop _, s => s.popBack
  | .resize _ n, s => s.resize (fun _ => none) N init z n
  | .reserve _ _, s => .ok s
  | .clear _, s => s.resize (fun _ => none) N init z 0
  | .assignFill _ n x, s => s.assignFill (fun _ => none) N n (.val x)
  | .assignList _ l, s => s.assignList (fun _ => none) N l
  | .insert _ p x, s => s.insert (fun _ => none) p (.val x)
  | .insertList _ p l, s => s.insertList (fun _ => none) p l
  | .erase _ p, s => s.erase p
  | .eraseRange _ a b, s => s.eraseRange a b
  | .set _ p x, s => s.setAt p x
  | .copy _ _, _ => .ub
  | .swap _ _, _ => .ub

/-- The vector that a member function is called on. -/
def memberTarget {β : Type} (o : SeqOp β) : Nat := o.names.headD 0

/-- `k = j`: `assign(rhs.begin(), rhs.end())` — containers/xstorage.hpp:842-855, 919-930. -/
def copyHeap (e : StoreEnv α) (N : Nat) (mem : Bool) (w : HWorld α) (k j : Nat) : HOut α :=
  match (w.get j).bind fun u => u.view w.heap with
  | .ok s => w.call e mem k (roomFor N s.toList.length) fun t => t.assignList (fun _ => none) N s.toList
  | _ => .ub

/-- The elements of two vectors are exchanged, after the smaller one got room for those of the other —
    containers/xstorage.hpp:1290-1321. -/
def swapInPlace (h : List (Block α)) (N : Nat) (init : Bool) (z : Option α) (v u : HVec α) :
    Res (List (Block α) × HVec α × HVec α) :=
  (v.view h).bind fun s => (u.view h).bind fun t =>
    (s.swapElements (fun _ => none) N init z t).bind fun r =>
      if (r.1.onStack = s.onStack ∧ r.1.cells.length = s.cells.length) ∧
          r.2.onStack = t.onStack ∧ r.2.cells.length = t.cells.length then
        let (h, v) := v.store h r.1
        let (h, u) := u.store h r.2
        .ok (h, v, u)
      else .ub

/-- `k.swap(j)` — containers/xstorage.hpp:1272-1322: two vectors on the heap exchange their pointers, but not their allocators. -/
def swapHeap (e : StoreEnv α) (N : Nat) (init : Bool) (z : Option α) (mem : Bool) (w : HWorld α) (k j : Nat) : HOut α :=
  match w.get k, w.get j with
  | .ok v, .ok u =>
    if k = j then .done w
    else if v.block ≠ none ∧ u.block ≠ none then
      .done ⟨w.heap, (w.vars.set k (some { u with alloc := v.alloc })).set j (some { v with alloc := u.alloc })⟩
    else
      match makeRoom e mem w.heap v fun s => if u.size > v.size then roomFor N u.size s else none with
      | .ok (some r) => match makeRoom e mem r.1 u fun t => if v.size > u.size then roomFor N v.size t else none with
        | .ok (some q) => match swapInPlace q.1 N init z r.2 q.2 with
          | .ok r => .done ⟨r.1, (w.vars.set k (some r.2.1)).set j (some r.2.2)⟩
          | _ => .ub
        | .ok none => .threw w
        | _ => .ub
      | .ok none => .threw w
      | _ => .ub
  | _, _ => .ub

/-- A function declared `noexcept`. -/
def HOut.noexcept : HOut α → HOut α
  | .threw _ => .terminated
  | o => o

/-- A constructor that first makes an empty vector; if the rest throws there is no vector. -/
def HWorld.construct (e : StoreEnv α) (N a : Nat) (w : HWorld α) (k : Nat) (rest : HWorld α → HOut α) : HOut α :=
  match w.vars[k]? with
  | some none => match rest ⟨w.heap, w.vars.set k (some (HVec.fresh e N a))⟩ with
    | .threw _ => .threw w
    | o => o
  | _ => .ub

/-- The destructor: all cells up to the capacity are destroyed — containers/xstorage.hpp:770-777, 181-201. -/
def HWorld.drop (e : StoreEnv α) (w : HWorld α) (k : Nat) : HOut α :=
  match w.get k with
  | .ok v => match safeDestroyDeallocate e w.heap v.alloc v.block v.cap with
    | .ok h => .done ⟨h, w.vars.set k none⟩
    | _ => .ub
  | _ => .ub

/-- The elements that a reader of the vectors finds, from `begin()` to `end()` — containers/xstorage.hpp:1050-1130. -/
def HWorld.seqs (w : HWorld α) : List (Option (List (Option α))) :=
  w.vars.map fun (v : Option (HVec α)) => v.bind fun (v : HVec α) =>
    match v.view w.heap with
    | .ok s => some s.toList
    | _ => none

/-- One statement.  `a` is the allocator of vectors that are given none — containers/xstorage.hpp:779-898, 1413-1417. -/
def smallRun1 (e : StoreEnv α) (N : Nat) (init : Bool) (z : Option α) (a : Nat) (mem : Bool) (w : HWorld α) :
    SmallOp (Option α) → HOut α
  | .make k l => w.construct e N a k fun w =>
      w.call e mem k (roomFor N l.length) fun t => t.assignList (fun _ => none) N l
  | .makeCopy k j => match w.get j with
    | .ok u => w.construct e N (e.select u.alloc) k fun w => copyHeap e N mem w k j
    | _ => .ub
  | .makeMove k j => (w.construct e N a k fun w => swapHeap e N init z mem w k j).noexcept
  | .drop k => w.drop e k
  | .member (.copy k j) => copyHeap e N mem w k j
  | .member (.swap k j) => swapHeap e N init z mem w k j
  | .member o => w.call e mem (memberTarget o) (memberNeed N o) (memberBody N init z o)
  | .moveAssign k j => (copyHeap e N mem w k j).noexcept
  | .exchange k j => (swapHeap e N init z mem w k j).noexcept

/-- A program that goes on after exceptions: each statement with the memory it finds. -/
def smallRun (e : StoreEnv α) (N : Nat) (init : Bool) (z : Option α) (a : Nat) :
    List (Bool × SmallOp (Option α)) → HWorld α → HOut α
  | [], w => .done w
  | (mem, o) :: r, w => match smallRun1 e N init z a mem w o with
    | .done w => smallRun e N init z a r w
    | .threw w => smallRun e N init z a r w
    | o => o

end

end Xt
