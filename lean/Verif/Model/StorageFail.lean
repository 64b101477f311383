import Verif.Model.Storage
import Verif.Spec.StorageFail
/-!
# Model: `uvector` when allocations, constructors and assignments of elements throw (containers/xstorage.hpp:157-425)

The heap and the vectors are those of Model/Storage.lean.  Each operation is given the number of attempts that succeed before
one throws, or `none` if nothing throws.  Attempts are, in the order in which the code makes them, the allocations, the
constructions of elements and the assignments to elements.  Destructors, and the exchange of pointers, do not throw.

Simplified: an element whose assignment throws keeps its value.  `std::uninitialized_copy` and `std::uninitialized_fill`
enter by their contract: when a constructor throws, they destroy what they have constructed and pass the exception on.
-/

namespace Xt
open Spec

/-- The outcome of a piece of code with result `β`. -/
inductive Att (α β : Type)
  | done (h : List (Block α)) (left : Option Nat) (x : β)
  | threw (h : List (Block α))
  | ub
  deriving DecidableEq, Repr

/-- One attempt: `none` if it throws, otherwise how many further ones succeed. -/
def attempt : Option Nat → Option (Option Nat)
  | none => some none
  | some 0 => none
  | some (k + 1) => some (some k)

section
variable {α : Type}

/-- Go on after a piece of code; an exception is passed on. -/
def Att.next {β γ : Type} (k : List (Block α) → Option Nat → β → Att α γ) : Att α β → Att α γ
  | .done h f x => k h f x
  | .threw h => .threw h
  | .ub => .ub

/-- Pass an exception on after `r`. -/
def passOn {β : Type} : Res (List (Block α)) → Att α β
  | .ok h => .threw h
  | _ => .ub

/-- `for (i = i0; …; ++i) step(i, x_i)`, each of which may throw; `undo i` is what is done before the exception of step `i` is
passed on. -/
def eachF (step : List (Block α) → Nat → Option α → Res (List (Block α)))
    (undo : List (Block α) → Nat → Res (List (Block α))) :
    List (Option α) → Nat → List (Block α) → Option Nat → Att α Unit
  | [], _, h, f => .done h f ()
  | x :: xs, i, h, f => match attempt f with
    | none => passOn (undo h i)
    | some f => match step h i x with
      | .ok h => eachF step undo xs (i + 1) h f
      | _ => .ub

/-- `std::uninitialized_copy`, `std::uninitialized_fill` to block `p`; the destructor of a trivial type does nothing. -/
def uninitializedCopyF (e : StoreEnv α) (h : List (Block α)) (f : Option Nat) (p : Nat) (xs : List (Option α)) : Att α Unit :=
  eachF (fun h i x => constructAt e h p i x)
    (fun h i => if e.trivial then .ok h else cellLoop i (fun i h => destroyAt h p i) h) xs 0 h f

/-- `std::copy` to block `p`. -/
def stdCopyF (e : StoreEnv α) (h : List (Block α)) (f : Option Nat) (p : Nat) (xs : List (Option α)) : Att α Unit :=
  eachF (fun h i x => assignAt e h p i x) (fun h _ => .ok h) xs 0 h f

/-- `safe_init_allocate` — containers/xstorage.hpp:160-179: nothing is undone. -/
def safeInitAllocateF (e : StoreEnv α) (h : List (Block α)) (f : Option Nat) (a n : Nat) : Att α Nat :=
  match attempt f with
  | none => .threw h
  | some f =>
    let (h, p) := allocate h a n
    if ¬ e.trivial then
      (eachF (fun h i x => constructAt e h p i x) (fun h _ => .ok h) (List.replicate n (some e.init)) 0 h f).next
        fun h f _ => .done h f p
    else .done h f p

/-- The body of `init_data` and of `uvector(count, value, alloc)` — containers/xstorage.hpp:204-215, 257-269.  When they throw
there is no vector, and its destructor is not called. -/
def initDataF (e : StoreEnv α) (h : List (Block α)) (f : Option Nat) (a : Nat) (xs : List (Option α)) : Att α UVec :=
  if xs.length ≠ 0 then
    match attempt f with
    | none => .threw h
    | some f =>
      let (h, p) := allocate h a xs.length
      (uninitializedCopyF e h f p xs).next fun h f _ => .done h f ⟨a, some p, xs.length⟩
  else .done h f ⟨a, none, 0⟩

/-- `uvector(count, alloc)` — containers/xstorage.hpp:244-255. -/
def uCountF (e : StoreEnv α) (h : List (Block α)) (f : Option Nat) (a n : Nat) : Att α UVec :=
  if n ≠ 0 then (safeInitAllocateF e h f a n).next fun h f p => .done h f ⟨a, some p, n⟩
  else .done h f ⟨a, none, 0⟩

/-- `uvector(const uvector&)` — containers/xstorage.hpp:298-307. -/
def uCopyF (e : StoreEnv α) (h : List (Block α)) (f : Option Nat) (v : UVec) : Att α UVec :=
  match elementsFrom h v.block v.size with
  | .ok xs => initDataF e h f (e.select v.alloc) xs
  | _ => .ub

/-- The outcome of a member function that changes the vector: also after an exception the vector is there. -/
inductive VecAtt (α : Type)
  | done (h : List (Block α)) (left : Option Nat) (v : UVec)
  | threw (h : List (Block α)) (v : UVec)
  | ub
  deriving DecidableEq, Repr

/-- Go on in a member function of `v`. -/
def Att.nextVec {β : Type} (v : UVec) (k : List (Block α) → Option Nat → β → VecAtt α) : Att α β → VecAtt α
  | .done h f x => k h f x
  | .threw h => .threw h v
  | .ub => .ub

/-- `resize_impl(new_size)` — containers/xstorage.hpp:217-228: `p_begin` and `p_end` are set after the new block is made. -/
def resizeImplF (e : StoreEnv α) (h : List (Block α)) (f : Option Nat) (v : UVec) (n : Nat) : VecAtt α :=
  if n ≠ v.size then
    (safeInitAllocateF e h f v.alloc n).nextVec v fun h f p =>
      match safeDestroyDeallocate e h v.alloc v.block v.size with
      | .ok h => .done h f ⟨v.alloc, some p, n⟩
      | _ => .ub
  else .done h f v

/-- `operator=(const uvector&)` from another object — containers/xstorage.hpp:318-339. -/
def uCopyAssignF (e : StoreEnv α) (h : List (Block α)) (f : Option Nat) (v rhs : UVec) : VecAtt α :=
  match resizeImplF e h f ⟨e.select rhs.alloc, v.block, v.size⟩ rhs.size with
  | .done h f v => match elementsFrom h rhs.block rhs.size with
    | .ok xs => match v.block with
      | none => if xs = [] then .done h f v else .ub
      | some p => (if e.trivial then uninitializedCopyF e h f p xs else stdCopyF e h f p xs).nextVec v
          fun h f _ => .done h f v
    | _ => .ub
  | o => o

/-- `operator[](i) = x` — containers/xstorage.hpp:427-431. -/
def uWriteF (e : StoreEnv α) (h : List (Block α)) (f : Option Nat) (v : UVec) (i : Nat) (x : α) : VecAtt α :=
  match v.block with
  | some p => match attempt f with
    | none => .threw h v
    | some f => match assignAt e h p i (some x) with
      | .ok h => .done h f v
      | _ => .ub
  | none => .ub

/-- The outcome of one operation of a program. -/
inductive StepAtt (α : Type)
  | done (w : UWorld α)
  | threw (w : UWorld α)
  | ub
  deriving DecidableEq, Repr

/-- Give the unused name `k` the vector that `f` constructs, if it does. -/
def UWorld.createF (w : UWorld α) (k : Nat) (f : List (Block α) → Att α UVec) : StepAtt α :=
  if w.vars[k]? = some none then
    match f w.heap with
    | .done h _ v => .done ⟨h, w.vars.set k (some v)⟩
    | .threw h => .threw ⟨h, w.vars⟩
    | .ub => .ub
  else .ub

/-- Change the vector of name `k`. -/
def UWorld.changeF (w : UWorld α) (k : Nat) (f : List (Block α) → UVec → VecAtt α) : StepAtt α :=
  match w.get k with
  | .ok v => match f w.heap v with
    | .done h _ v => .done ⟨h, w.vars.set k (some v)⟩
    | .threw h v => .threw ⟨h, w.vars.set k (some v)⟩
    | .ub => .ub
  | _ => .ub

/-- An operation of which nothing can throw: moves, `swap` and the destructor. -/
def StepAtt.safe : Res (UWorld α) → StepAtt α
  | .ok w => .done w
  | _ => .ub

/-- One operation that makes at most `f` attempts before one throws; constructors that are given no allocator use `a`. -/
def uStepF (e : StoreEnv α) (a : Nat) (w : UWorld α) (f : Option Nat) : StoreOp α → StepAtt α
  | .ctorCount k n => w.createF k fun h => uCountF e h f a n
  | .ctorFill k n x => w.createF k fun h => initDataF e h f a (List.replicate n (some x))
  | .ctorList k l => w.createF k fun h => initDataF e h f a (l.map some)
  | .ctorCopy k j => match w.get j with
    | .ok v => w.createF k fun h => uCopyF e h f v
    | _ => .ub
  | .copy k j => match w.get j with
    | .ok rhs => if k ≠ j then w.changeF k fun h v => uCopyAssignF e h f v rhs else .done w
    | _ => .ub
  | .resize k n => w.changeF k fun h v => resizeImplF e h f v n
  | .write k i x => w.changeF k fun h v => uWriteF e h f v i x
  | o => StepAtt.safe (uStep e a w o)

/-- A program that catches what its operations throw.  `fails` tells for each operation that is made when it throws. -/
def uRunF (e : StoreEnv α) (a : Nat) : TryProg α → List (Option Nat) → UWorld α → Res (UWorld α)
  | .stop, _, w => .ok w
  | .attempt o p q, fails, w => match uStepF e a w (fails.headD none) o with
    | .done w => uRunF e a p fails.tail w
    | .threw w => uRunF e a q fails.tail w
    | .ub => .ub

end

end Xt
