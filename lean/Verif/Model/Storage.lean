import Verif.Model.Chunked
import Verif.Spec.Storage
/-!
# Model: storages on the heap (`uvector`, containers/xstorage.hpp:25-610, and `xbuffer_adaptor`,
containers/xbuffer_adaptor.hpp)

The heap is the list of all blocks ever allocated; an address is a place in it, so that addresses are not used again.  A
block remembers the allocator it came from, by a number, and whether it was released.  A cell is `none` when it holds no
object or, for a trivially default constructible type, an object of indeterminate value, which may be copied.

Undefined (`ub`): use or release of a block that was released or never allocated, release with another allocator or another
size than it was allocated with, use of cells outside the block.  For types that are not trivially default constructible
also: assignment to and destruction of an object that does not exist.  Creating an object on top of another, and releasing
a block with objects in it, only lose objects, but are counted as `ub` here as well.  Allocation and constructors do not
fail.
-/

namespace Xt
open Spec

/-- A block of memory. -/
structure Block (α : Type) where
  alloc : Nat
  cells : List (Option α)
  live : Bool
  deriving DecidableEq, Repr

/-- What is known about the element type and the allocator: `xtrivially_default_constructible<T>`, `T()`, and
`select_on_container_copy_construction` — utils/xutils.hpp:650-660. -/
structure StoreEnv (α : Type) where
  trivial : Bool
  init : α
  select : Nat → Nat

section heap
variable {α : Type}

/-- `alloc.allocate(n)`: the heap and the address of the new block. -/
def allocate (h : List (Block α)) (a n : Nat) : List (Block α) × Nat := (h ++ [⟨a, List.replicate n none, true⟩], h.length)

/-- The cells of the block at `p`, if it can be used. -/
def blockCells (h : List (Block α)) (p : Nat) : Res (List (Option α)) :=
  match h[p]? with
  | some b => if b.live then .ok b.cells else .ub
  | none => .ub

/-- Change the cells of the block at `p`. -/
def setCells (h : List (Block α)) (p : Nat) (c : List (Option α)) : List (Block α) :=
  match h[p]? with
  | some b => h.set p ⟨b.alloc, c, b.live⟩
  | none => h

/-- Construct an object in cell `i` of block `p`. -/
def constructAt (e : StoreEnv α) (h : List (Block α)) (p i : Nat) (x : Option α) : Res (List (Block α)) :=
  (blockCells h p).bind fun c =>
    match c[i]? with
    | some none => .ok (setCells h p (c.set i x))
    | some (some _) => if e.trivial then .ok (setCells h p (c.set i x)) else .ub
    | none => .ub

/-- Destroy the object in cell `i` of block `p`, of a type that is not trivial. -/
def destroyAt (h : List (Block α)) (p i : Nat) : Res (List (Block α)) :=
  (blockCells h p).bind fun c =>
    match c[i]? with
    | some (some _) => .ok (setCells h p (c.set i none))
    | _ => .ub

/-- Assign to the object in cell `i` of block `p`. -/
def assignAt (e : StoreEnv α) (h : List (Block α)) (p i : Nat) (x : Option α) : Res (List (Block α)) :=
  (blockCells h p).bind fun c =>
    match c[i]? with
    | some (some _) => .ok (setCells h p (c.set i x))
    | some none => if e.trivial then .ok (setCells h p (c.set i x)) else .ub
    | none => .ub

/-- `for (i = 0; i < n; ++i) f(i)`. -/
def cellLoop (n : Nat) (f : Nat → List (Block α) → Res (List (Block α))) (h : List (Block α)) : Res (List (Block α)) :=
  (List.range n).foldl (fun (r : Res (List (Block α))) i => r.bind (f i)) (.ok h)

/-- `std::uninitialized_copy` and `std::uninitialized_fill` to block `p`. -/
def uninitializedCopy (e : StoreEnv α) (h : List (Block α)) (p : Nat) (xs : List (Option α)) : Res (List (Block α)) :=
  cellLoop xs.length (fun i h => constructAt e h p i (xs.getD i none)) h

/-- `std::copy` to block `p`. -/
def stdCopy (e : StoreEnv α) (h : List (Block α)) (p : Nat) (xs : List (Option α)) : Res (List (Block α)) :=
  cellLoop xs.length (fun i h => assignAt e h p i (xs.getD i none)) h

/-- `traits::deallocate(alloc, ptr, size)`. -/
def deallocate (e : StoreEnv α) (h : List (Block α)) (a p n : Nat) : Res (List (Block α)) :=
  match h[p]? with
  | some b =>
    if b.live ∧ b.alloc = a ∧ b.cells.length = n ∧ (e.trivial ∨ b.cells.all (·.isNone)) then
      .ok (h.set p ⟨b.alloc, b.cells, false⟩)
    else .ub
  | none => .ub

/-- `safe_init_allocate` — containers/xstorage.hpp:160-179. -/
def safeInitAllocate (e : StoreEnv α) (h : List (Block α)) (a n : Nat) : Res (List (Block α) × Nat) :=
  let (h, p) := allocate h a n
  if ¬ e.trivial then
    (cellLoop n (fun i h => constructAt e h p i (some e.init)) h).map fun h => (h, p)
  else .ok (h, p)

/-- `safe_destroy_deallocate`; the pointer may be null — containers/xstorage.hpp:181-201. -/
def safeDestroyDeallocate (e : StoreEnv α) (h : List (Block α)) (a : Nat) (ptr : Option Nat) (n : Nat) :
    Res (List (Block α)) :=
  match ptr with
  | none => .ok h
  | some p =>
    (if ¬ e.trivial then cellLoop n (fun i h => destroyAt h p i) h else .ok h).bind
      fun h => deallocate e h a p n

/-- The elements from `ptr` to `ptr + n`. -/
def elementsFrom (h : List (Block α)) (ptr : Option Nat) (n : Nat) : Res (List (Option α)) :=
  match ptr with
  | none => if n = 0 then .ok [] else .ub
  | some p => (blockCells h p).bind fun c => if n ≤ c.length then .ok (c.take n) else .ub

end heap

/-! ### `uvector` -/

/-- `m_allocator`, `p_begin` and `p_end - p_begin` — containers/xstorage.hpp:127-132. -/
structure UVec where
  alloc : Nat
  block : Option Nat
  size : Nat
  deriving DecidableEq, Repr

section uvector
variable {α : Type}

/-- `init_data(first, last)` on a fresh vector — containers/xstorage.hpp:204-215. -/
def initData (e : StoreEnv α) (h : List (Block α)) (a : Nat) (xs : List (Option α)) : Res (List (Block α) × UVec) :=
  if xs.length ≠ 0 then
    let (h, p) := allocate h a xs.length
    (uninitializedCopy e h p xs).map fun h => (h, ⟨a, some p, xs.length⟩)
  else .ok (h, ⟨a, none, 0⟩)

/-- `resize_impl(new_size)` — containers/xstorage.hpp:217-228; also `resize` and `clear`, 391-395, 421-425. -/
def resizeImpl (e : StoreEnv α) (h : List (Block α)) (v : UVec) (n : Nat) : Res (List (Block α) × UVec) :=
  if n ≠ v.size then
    (safeInitAllocate e h v.alloc n).bind fun r =>
      (safeDestroyDeallocate e r.1 v.alloc v.block v.size).map fun h => (h, ⟨v.alloc, some r.2, n⟩)
  else .ok (h, v)

/-- `uvector(count, alloc)` — containers/xstorage.hpp:244-255. -/
def uCount (e : StoreEnv α) (h : List (Block α)) (a n : Nat) : Res (List (Block α) × UVec) :=
  if n ≠ 0 then (safeInitAllocate e h a n).map fun r => (r.1, ⟨a, some r.2, n⟩) else .ok (h, ⟨a, none, 0⟩)

/-- `uvector(count, value, alloc)` — containers/xstorage.hpp:257-269. -/
def uFill (e : StoreEnv α) (h : List (Block α)) (a n : Nat) (x : α) : Res (List (Block α) × UVec) :=
  if n ≠ 0 then
    let (h, p) := allocate h a n
    (uninitializedCopy e h p (List.replicate n (some x))).map fun h => (h, ⟨a, some p, n⟩)
  else .ok (h, ⟨a, none, 0⟩)

/-- `~uvector()` — containers/xstorage.hpp:290-296. -/
def uDestroy (e : StoreEnv α) (h : List (Block α)) (v : UVec) : Res (List (Block α)) :=
  safeDestroyDeallocate e h v.alloc v.block v.size

/-- `uvector(const uvector&)` — containers/xstorage.hpp:298-307. -/
def uCopy (e : StoreEnv α) (h : List (Block α)) (v : UVec) : Res (List (Block α) × UVec) :=
  (elementsFrom h v.block v.size).bind fun xs => initData e h (e.select v.alloc) xs

/-- `operator=(const uvector&)` from another object — containers/xstorage.hpp:318-339. -/
def uCopyAssign (e : StoreEnv α) (h : List (Block α)) (v rhs : UVec) : Res (List (Block α) × UVec) :=
  (resizeImpl e h ⟨e.select rhs.alloc, v.block, v.size⟩ rhs.size).bind fun r =>
    (elementsFrom r.1 rhs.block rhs.size).bind fun xs =>
      match r.2.block with
      | none => if xs = [] then .ok r else .ub
      | some p => (if e.trivial then uninitializedCopy e r.1 p xs else stdCopy e r.1 p xs).map fun h => (h, r.2)

/-- `uvector(uvector&&)`: the new vector and what is left of the other — containers/xstorage.hpp:341-349. -/
def uMove (rhs : UVec) : UVec × UVec := (rhs, ⟨rhs.alloc, none, 0⟩)

/-- `uvector(uvector&&, alloc)` — containers/xstorage.hpp:351-359. -/
def uMoveAlloc (rhs : UVec) (a : Nat) : UVec × UVec := (⟨a, rhs.block, rhs.size⟩, ⟨rhs.alloc, none, 0⟩)

/-- `operator[](i) = x` — containers/xstorage.hpp:427-431. -/
def uWrite (e : StoreEnv α) (h : List (Block α)) (v : UVec) (i : Nat) (x : α) : Res (List (Block α)) :=
  match v.block with
  | some p => assignAt e h p i (some x)
  | none => .ub

/-- `operator[](i)`; an indeterminate value must not be used — containers/xstorage.hpp:427-437. -/
def uRead (h : List (Block α)) (v : UVec) (i : Nat) : Res α :=
  match v.block with
  | some p => (blockCells h p).bind fun c => match c[i]? with
    | some (some x) => .ok x
    | _ => .ub
  | none => .ub

/-- `at(i)` — containers/xstorage.hpp:439-457. -/
def uAt (h : List (Block α)) (v : UVec) (i : Nat) : Res α := if i ≥ v.size then .throws else uRead h v i

/-- `front()` — containers/xstorage.hpp:459-469. -/
def uFront (h : List (Block α)) (v : UVec) : Res α := uRead h v 0

/-- `back()`, `*(p_end - 1)` — containers/xstorage.hpp:471-481. -/
def uBack (h : List (Block α)) (v : UVec) : Res α := if v.size = 0 then .ub else uRead h v (v.size - 1)

/-- A program state: the heap, and the vectors by name. -/
structure UWorld (α : Type) where
  heap : List (Block α)
  vars : List (Option UVec)
  deriving DecidableEq, Repr

/-- The vector of name `k`. -/
def UWorld.get (w : UWorld α) (k : Nat) : Res UVec := orUb ((w.vars[k]?).bind id)

/-- Give the unused name `k` the vector that `f` constructs. -/
def UWorld.create (w : UWorld α) (k : Nat) (f : List (Block α) → Res (List (Block α) × UVec)) : Res (UWorld α) :=
  if w.vars[k]? = some none then (f w.heap).map fun r => ⟨r.1, w.vars.set k (some r.2)⟩ else .ub

/-- Change the vector of name `k`. -/
def UWorld.change (w : UWorld α) (k : Nat) (f : List (Block α) → UVec → Res (List (Block α) × UVec)) : Res (UWorld α) :=
  (w.get k).bind fun v => (f w.heap v).map fun r => ⟨r.1, w.vars.set k (some r.2)⟩

/-- One operation; constructors that are given no allocator use `a`.
`operator=(uvector&&)` — containers/xstorage.hpp:361-369 — constructs `tmp` from `rhs`, exchanges the pointers but not the
allocators, and destroys `tmp`.  `swap` — containers/xstorage.hpp:562-569.  `copy` compares addresses of the objects. -/
def uStep (e : StoreEnv α) (a : Nat) (w : UWorld α) : StoreOp α → Res (UWorld α)
  | .ctorCount k n => w.create k fun h => uCount e h a n
  | .ctorFill k n x => w.create k fun h => uFill e h a n x
  | .ctorList k l => w.create k fun h => initData e h a (l.map some)
  | .ctorCopy k j => (w.get j).bind fun v => w.create k fun h => uCopy e h v
  | .ctorMove k j => (w.get j).bind fun v =>
      UWorld.create ⟨w.heap, w.vars.set j (some (uMove v).2)⟩ k fun h => .ok (h, (uMove v).1)
  | .copy k j => (w.get j).bind fun rhs =>
      if k ≠ j then w.change k fun h v => uCopyAssign e h v rhs else .ok w
  | .move k j => (w.get j).bind fun rhs =>
      let tmp := (uMove rhs).1
      UWorld.change ⟨w.heap, w.vars.set j (some (uMove rhs).2)⟩ k fun h v =>
        (uDestroy e h ⟨tmp.alloc, v.block, v.size⟩).map fun h => (h, ⟨v.alloc, tmp.block, tmp.size⟩)
  | .resize k n => w.change k fun h v => resizeImpl e h v n
  | .write k i x => w.change k fun h v => (uWrite e h v i x).map fun h => (h, v)
  | .swap k j => (w.get k).bind fun v => (w.get j).map fun u => ⟨w.heap, (w.vars.set k (some u)).set j (some v)⟩
  | .destroy k => (w.get k).bind fun v => (uDestroy e w.heap v).map fun h => ⟨h, w.vars.set k none⟩

/-- A history. -/
def uRun (e : StoreEnv α) (a : Nat) : List (StoreOp α) → UWorld α → Res (UWorld α)
  | [], w => .ok w
  | o :: os, w => (uStep e a w o).bind (uRun e a os)

end uvector

/-! ### `xbuffer_adaptor` with `acquire_ownership` -/

/-- `m_data`, `m_size`, `m_moved_from` and `m_allocator` — containers/xbuffer_adaptor.hpp:184-192.  `m_data` holds a pointer
(`CP` is a pointer type; when the adaptor was made from a pointer variable, `m_data` refers to that variable instead). -/
structure OwnerBuf where
  data : Option Nat
  size : Nat
  movedFrom : Bool
  alloc : Nat
  deriving DecidableEq, Repr

section owner
variable {α : Type}

/-- The user allocates a block with the allocator and constructs its elements. -/
def userBuffer (e : StoreEnv α) (h : List (Block α)) (a : Nat) (l : List α) : Res (List (Block α) × Nat) :=
  let (h, p) := allocate h a l.length
  (uninitializedCopy e h p (l.map some)).map fun h => (h, p)

/-- The constructor — containers/xbuffer_adaptor.hpp:681-690. -/
def ownerNew (p n a : Nat) : OwnerBuf := ⟨some p, n, false, a⟩

/-- `~xbuffer_owner_storage()` — containers/xbuffer_adaptor.hpp:692-700. -/
def ownerDestroy (e : StoreEnv α) (h : List (Block α)) (v : OwnerBuf) : Res (List (Block α)) :=
  if ¬ v.movedFrom then safeDestroyDeallocate e h v.alloc v.data v.size else .ok h

/-- `operator=(const self_type&)` from another object — containers/xbuffer_adaptor.hpp:702-728. -/
def ownerCopyAssign (e : StoreEnv α) (h : List (Block α)) (v rhs : OwnerBuf) : Res (List (Block α) × OwnerBuf) :=
  (safeInitAllocate e h (e.select rhs.alloc) rhs.size).bind fun r =>
    (elementsFrom r.1 rhs.data rhs.size).bind fun xs =>
      (if e.trivial then uninitializedCopy e r.1 r.2 xs else stdCopy e r.1 r.2 xs).bind fun h =>
        (safeDestroyDeallocate e h v.alloc v.data v.size).map fun h =>
          (h, ⟨some r.2, rhs.size, v.movedFrom, e.select rhs.alloc⟩)

/-- The move constructor: the new object and what is left of the other, which keeps its pointer —
containers/xbuffer_adaptor.hpp:730-739. -/
def ownerMove (rhs : OwnerBuf) : OwnerBuf × OwnerBuf := (rhs, ⟨rhs.data, 0, true, rhs.alloc⟩)

/-- `swap`: everything but `m_moved_from` — containers/xbuffer_adaptor.hpp:787-794. -/
def ownerSwap (v rhs : OwnerBuf) : OwnerBuf × OwnerBuf :=
  (⟨rhs.data, rhs.size, v.movedFrom, rhs.alloc⟩, ⟨v.data, v.size, rhs.movedFrom, v.alloc⟩)

/-- `resize(size)` — containers/xbuffer_adaptor.hpp:754-765. -/
def ownerResize (e : StoreEnv α) (h : List (Block α)) (v : OwnerBuf) (n : Nat) : Res (List (Block α) × OwnerBuf) :=
  if n ≠ v.size then
    (safeInitAllocate e h v.alloc n).bind fun r =>
      (safeDestroyDeallocate e r.1 v.alloc v.data v.size).map fun h => (h, ⟨some r.2, n, v.movedFrom, v.alloc⟩)
  else .ok (h, v)

/-- `reset_data(data, size, alloc)`: exchange with a new object, which is destroyed —
containers/xbuffer_adaptor.hpp:796-803. -/
def ownerReset (e : StoreEnv α) (h : List (Block α)) (v : OwnerBuf) (p n a : Nat) : Res (List (Block α) × OwnerBuf) :=
  let r := ownerSwap v (ownerNew p n a)
  (ownerDestroy e h r.2).map fun h => (h, r.1)

/-- `xbuffer_adaptor::operator=(temporary_type&&)` — containers/xbuffer_adaptor.hpp:1058-1064. -/
def ownerAssign (e : StoreEnv α) (h : List (Block α)) (v : OwnerBuf) (l : List α) : Res (List (Block α) × OwnerBuf) :=
  (ownerResize e h v l.length).bind fun r =>
    match r.2.data with
    | some p => (stdCopy e r.1 p (l.map some)).map fun h => (h, r.2)
    | none => if l = [] then .ok r else .ub

/-- `data()[i] = x`. -/
def ownerWrite (e : StoreEnv α) (h : List (Block α)) (v : OwnerBuf) (i : Nat) (x : α) : Res (List (Block α)) :=
  match v.data with
  | some p => assignAt e h p i (some x)
  | none => .ub

/-- A program state: the heap, and the adaptors by name. -/
structure OwnerWorld (α : Type) where
  heap : List (Block α)
  vars : List (Option OwnerBuf)
  deriving DecidableEq, Repr

/-- The adaptor of name `k`. -/
def OwnerWorld.get (w : OwnerWorld α) (k : Nat) : Res OwnerBuf := orUb ((w.vars[k]?).bind id)

/-- Change the adaptor of name `k`. -/
def OwnerWorld.change (w : OwnerWorld α) (k : Nat)
    (f : List (Block α) → OwnerBuf → Res (List (Block α) × OwnerBuf)) : Res (OwnerWorld α) :=
  (w.get k).bind fun v => (f w.heap v).map fun r => ⟨r.1, w.vars.set k (some r.2)⟩

/-- One operation, with the allocator `a`.  The move assignment is `swap` — containers/xbuffer_adaptor.hpp:741-746. -/
def ownerModelStep (e : StoreEnv α) (a : Nat) (w : OwnerWorld α) : OwnerOp α → Res (OwnerWorld α)
  | .adopt k l =>
    if w.vars[k]? = some none then
      (userBuffer e w.heap a l).map fun r => ⟨r.1, w.vars.set k (some (ownerNew r.2 l.length a))⟩
    else .ub
  | .ctorMove k j => (w.get j).bind fun rhs =>
    if w.vars[k]? = some none then
      .ok ⟨w.heap, (w.vars.set j (some (ownerMove rhs).2)).set k (some (ownerMove rhs).1)⟩
    else .ub
  | .copy k j => (w.get j).bind fun rhs =>
      if k ≠ j then w.change k fun h v => ownerCopyAssign e h v rhs else .ok w
  | .move k j => (w.get k).bind fun v => (w.get j).map fun u =>
      ⟨w.heap, (w.vars.set k (some (ownerSwap v u).1)).set j (some (ownerSwap v u).2)⟩
  | .assign k l => w.change k fun h v => ownerAssign e h v l
  | .resize k n => w.change k fun h v => ownerResize e h v n
  | .reset k l => w.change k fun h v =>
      (userBuffer e h a l).bind fun r => ownerReset e r.1 v r.2 l.length a
  | .write k i x => w.change k fun h v => (ownerWrite e h v i x).map fun h => (h, v)
  | .swap k j => (w.get k).bind fun v => (w.get j).map fun u =>
      ⟨w.heap, (w.vars.set k (some (ownerSwap v u).1)).set j (some (ownerSwap v u).2)⟩
  | .destroy k => (w.get k).bind fun v => (ownerDestroy e w.heap v).map fun h => ⟨h, w.vars.set k none⟩

/-- A history. -/
def ownerModelRun (e : StoreEnv α) (a : Nat) : List (OwnerOp α) → OwnerWorld α → Res (OwnerWorld α)
  | [], w => .ok w
  | o :: os, w => (ownerModelStep e a w o).bind (ownerModelRun e a os)

end owner

/-! ### `xbuffer_adaptor` with `no_ownership` -/

/-- `resize(size)` of a buffer that is not owned — containers/xbuffer_adaptor.hpp:637-645. -/
def borrowedResize (m n : Nat) : Res Nat := if n ≠ m then .throws else .ok m

/-- `operator=(temporary_type&&)` of a buffer that is not owned — containers/xbuffer_adaptor.hpp:1058-1064. -/
def borrowedAssign {α : Type} (e : StoreEnv α) (h : List (Block α)) (p m : Nat) (l : List α) : Res (List (Block α)) :=
  (borrowedResize m l.length).bind fun _ => stdCopy e h p (l.map some)

/-! ### Comparisons -/

/-- `std::lexicographical_compare` with a comparison. -/
def lexCompare {α : Type} (lt : α → α → Bool) : List α → List α → Bool
  | [], [] => false
  | [], _ :: _ => true
  | _ :: _, [] => false
  | x :: xs, y :: ys => if lt x y then true else if lt y x then false else lexCompare lt xs ys

/-- The comparisons `<`, `<=`, `>`, `>=` of `uvector` — containers/xstorage.hpp:583-606. -/
def uLt (xs ys : List Int) : Bool := lexCompare (fun x y => decide (x < y)) xs ys
/-- `lhs > rhs` is `rhs < lhs` — containers/xstorage.hpp:595-599. -/
def uGt (xs ys : List Int) : Bool := uLt ys xs
/-- `lhs <= rhs` is `!(lhs > rhs)` — containers/xstorage.hpp:589-593. -/
def uLe (xs ys : List Int) : Bool := !uGt xs ys
/-- `lhs >= rhs` is `!(lhs < rhs)` — containers/xstorage.hpp:601-605. -/
def uGe (xs ys : List Int) : Bool := !uLt xs ys

/-- `operator<` of `xbuffer_adaptor_base` — containers/xbuffer_adaptor.hpp:1004-1014. -/
def bufLt (xs ys : List Int) : Bool := lexCompare (fun x y => decide (x < y)) xs ys
/-- `operator<=`, with `std::less_equal` — containers/xbuffer_adaptor.hpp:1016-1026. -/
def bufLe (xs ys : List Int) : Bool := lexCompare (fun x y => decide (x ≤ y)) xs ys
/-- `operator>`, with `std::greater` — containers/xbuffer_adaptor.hpp:1028-1040. -/
def bufGt (xs ys : List Int) : Bool := lexCompare (fun x y => decide (x > y)) xs ys
/-- `operator>=`, with `std::greater_equal` — containers/xbuffer_adaptor.hpp:1042-1052. -/
def bufGe (xs ys : List Int) : Bool := lexCompare (fun x y => decide (x ≥ y)) xs ys

end Xt
