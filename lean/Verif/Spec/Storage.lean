/-!
# Specification: histories of storages (C70)

Names of storages, each of which holds nothing (no object has that name) or a sequence.  An element is `none` when its value
is unspecified.  An operation that is not allowed, such as the use of a name that holds nothing, has no result.  Nothing
here knows about blocks of memory.
-/

namespace Xt.Spec

/-- One operation on a collection of storages; `k` and `j` are names. -/
inductive StoreOp (α : Type)
  /-- A new storage of `n` elements. -/
  | ctorCount (k n : Nat)
  /-- A new storage of `n` copies of `x`. -/
  | ctorFill (k n : Nat) (x : α)
  /-- A new storage of the given elements, from a list or an iterator range. -/
  | ctorList (k : Nat) (l : List α)
  /-- A new storage that is a copy of `j`. -/
  | ctorCopy (k j : Nat)
  /-- A new storage that takes the elements of `j`. -/
  | ctorMove (k j : Nat)
  /-- `k = j`. -/
  | copy (k j : Nat)
  /-- `k = std::move(j)`. -/
  | move (k j : Nat)
  /-- Change the number of elements. -/
  | resize (k n : Nat)
  /-- Write element `i`. -/
  | write (k i : Nat) (x : α)
  /-- Exchange two storages. -/
  | swap (k j : Nat)
  /-- End of life. -/
  | destroy (k : Nat)

/-- `n` elements as they are created: of unspecified value for a type that is trivially default constructible, otherwise
default elements. -/
def newElements {α : Type} (trivial : Bool) (z : α) (n : Nat) : List (Option α) :=
  List.replicate n (if trivial then none else some z)

/-- The elements after a change of size: all are new, unless the size stays. -/
def resized {α : Type} (trivial : Bool) (z : α) (l : List (Option α)) (n : Nat) : List (Option α) :=
  if n = l.length then l else newElements trivial z n

/-- Give the unused name `k` a sequence. -/
def create {α : Type} (s : List (Option (List (Option α)))) (k : Nat) (l : List (Option α)) :
    Option (List (Option (List (Option α)))) :=
  match s[k]? with
  | some none => some (s.set k (some l))
  | _ => none

/-- The sequence of name `k`. -/
def seqOf {α : Type} (s : List (Option (List (Option α)))) (k : Nat) : Option (List (Option α)) := (s[k]?).bind id

/-- What an operation does.  A storage that was moved from is empty. -/
def storeStep {α : Type} (trivial : Bool) (z : α) (s : List (Option (List (Option α)))) :
    StoreOp α → Option (List (Option (List (Option α))))
  | .ctorCount k n => create s k (newElements trivial z n)
  | .ctorFill k n x => create s k (List.replicate n (some x))
  | .ctorList k l => create s k (l.map some)
  | .ctorCopy k j => (seqOf s j).bind fun l => create s k l
  | .ctorMove k j => (seqOf s j).bind fun l => create (s.set j (some [])) k l
  | .copy k j => (seqOf s j).bind fun l => (seqOf s k).map fun _ => s.set k (some l)
  | .move k j => (seqOf s j).bind fun l => (seqOf s k).map fun _ => (s.set j (some [])).set k (some l)
  | .resize k n => (seqOf s k).map fun l => s.set k (some (resized trivial z l n))
  | .write k i x => (seqOf s k).bind fun l => if i < l.length then some (s.set k (some (l.set i (some x)))) else none
  | .swap k j => (seqOf s k).bind fun l => (seqOf s j).map fun m => (s.set k (some m)).set j (some l)
  | .destroy k => (seqOf s k).map fun _ => s.set k none

/-- A history. -/
def storeRun {α : Type} (trivial : Bool) (z : α) :
    List (StoreOp α) → List (Option (List (Option α))) → Option (List (Option (List (Option α))))
  | [], s => some s
  | o :: os, s => (storeStep trivial z s o).bind (storeRun trivial z os)

/-! ### Buffers taken over from the user -/

/-- What a name of an owning adaptor holds: nothing, an adaptor that was moved from, or a sequence. -/
inductive OwnerVal (α : Type)
  | nothing
  | moved
  | val (l : List (Option α))
  deriving DecidableEq

/-- One operation on a collection of owning adaptors. -/
inductive OwnerOp (α : Type)
  /-- A new adaptor takes over a buffer of the given elements. -/
  | adopt (k : Nat) (l : List α)
  /-- A new adaptor moved from `j`. -/
  | ctorMove (k j : Nat)
  /-- `k = j`. -/
  | copy (k j : Nat)
  /-- `k = std::move(j)`. -/
  | move (k j : Nat)
  /-- Assignment of a temporary sequence. -/
  | assign (k : Nat) (l : List α)
  /-- Change the number of elements. -/
  | resize (k n : Nat)
  /-- Take over another buffer. -/
  | reset (k : Nat) (l : List α)
  /-- Write element `i`. -/
  | write (k i : Nat) (x : α)
  /-- Exchange two adaptors. -/
  | swap (k j : Nat)
  /-- End of life. -/
  | destroy (k : Nat)

/-- The sequence of name `k`. -/
def ownerVal {α : Type} (s : List (OwnerVal α)) (k : Nat) : Option (List (Option α)) :=
  match s[k]? with
  | some (.val l) => some l
  | _ => none

/-- Give the unused name `k` a sequence. -/
def ownerCreate {α : Type} (s : List (OwnerVal α)) (k : Nat) (l : List (Option α)) : Option (List (OwnerVal α)) :=
  match s[k]? with
  | some .nothing => some (s.set k (.val l))
  | _ => none

/-- What an operation does, when all adaptors it mentions hold sequences. -/
def ownerStep {α : Type} (trivial : Bool) (z : α) (s : List (OwnerVal α)) : OwnerOp α → Option (List (OwnerVal α))
  | .adopt k l => ownerCreate s k (l.map some)
  | .ctorMove k j => (ownerVal s j).bind fun l => ownerCreate (s.set j .moved) k l
  | .copy k j => (ownerVal s j).bind fun l => (ownerVal s k).map fun _ => s.set k (.val l)
  | .move k j => (ownerVal s k).bind fun l => (ownerVal s j).map fun m => (s.set k (.val m)).set j (.val l)
  | .assign k l => (ownerVal s k).map fun _ => s.set k (.val (l.map some))
  | .resize k n => (ownerVal s k).map fun l => s.set k (.val (resized trivial z l n))
  | .reset k l => (ownerVal s k).map fun _ => s.set k (.val (l.map some))
  | .write k i x => (ownerVal s k).bind fun l =>
      if i < l.length then some (s.set k (.val (l.set i (some x)))) else none
  | .swap k j => (ownerVal s k).bind fun l => (ownerVal s j).map fun m => (s.set k (.val m)).set j (.val l)
  | .destroy k => match s[k]? with
    | some (.val _) => some (s.set k .nothing)
    | some .moved => some (s.set k .nothing)
    | _ => none

/-- A history. -/
def ownerRun {α : Type} (trivial : Bool) (z : α) : List (OwnerOp α) → List (OwnerVal α) → Option (List (OwnerVal α))
  | [], s => some s
  | o :: os, s => (ownerStep trivial z s o).bind (ownerRun trivial z os)

end Xt.Spec
