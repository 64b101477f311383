import Verif.Spec.Storage
/-!
# Specification: histories of storages in which operations may fail (C97)
-/

namespace Xt.Spec

/-- A program: end, or try an operation and go on with `p`, or with `q` if it throws. -/
inductive TryProg (α : Type)
  | stop
  | attempt (o : StoreOp α) (p q : TryProg α)

/-- What the sequences may be after an operation failed.  Failed constructors, changes of size and writes change nothing; after
a failed assignment there may be copies of some first elements, in front of what a change of the size leaves.  Moving,
exchanging and destroying do not fail. -/
def MayFail {α : Type} (trivial : Bool) (z : α) (s : List (Option (List (Option α)))) :
    StoreOp α → List (Option (List (Option α))) → Prop
  | .ctorCount _ _, s' => s' = s
  | .ctorFill _ _ _, s' => s' = s
  | .ctorList _ _, s' => s' = s
  | .ctorCopy _ _, s' => s' = s
  | .resize _ _, s' => s' = s
  | .write _ _ _, s' => s' = s
  | .copy k j, s' => k ≠ j ∧ (s' = s ∨ ∃ l m i, seqOf s j = some l ∧ seqOf s k = some m ∧ i < l.length ∧
      s' = s.set k (some (l.take i ++ (resized trivial z m l.length).drop i)))
  | .ctorMove _ _, _ => False
  | .move _ _, _ => False
  | .swap _ _, _ => False
  | .destroy _, _ => False

/-- Every operation the program may come to is one that can be made. -/
def CanTry {α : Type} (trivial : Bool) (z : α) : TryProg α → List (Option (List (Option α))) → Prop
  | .stop, _ => True
  | .attempt o p q, s => (∃ t, storeStep trivial z s o = some t ∧ CanTry trivial z p t) ∧
      ∀ t, MayFail trivial z s o t → CanTry trivial z q t

/-- The sequences the program may end with. -/
def MayEnd {α : Type} (trivial : Bool) (z : α) :
    TryProg α → List (Option (List (Option α))) → List (Option (List (Option α))) → Prop
  | .stop, s, s' => s' = s
  | .attempt o p q, s, s' => (∃ t, storeStep trivial z s o = some t ∧ MayEnd trivial z p t s') ∨
      ∃ t, MayFail trivial z s o t ∧ MayEnd trivial z q t s'

end Xt.Spec
