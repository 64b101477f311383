import Verif.Spec.Index
/-!
# Specification: broadcasting an index, traversal orders
-/

namespace Xt.Spec

/-- The index of an operand of shape `csh` that is combined with the index `idx` of the result:
missing leading axes are dropped and extent-1 axes are read at 0. -/
def bcIndex (csh idx : List Nat) : List Nat :=
  List.zipWith (fun n i => if n = 1 then 0 else i) csh (idx.drop (idx.length - csh.length))

/-- A shape can be broadcast to another: axes aligned at the end, each extent 1 or equal. -/
def BroadcastsTo (csh sh : List Nat) : Prop :=
  csh.length ≤ sh.length ∧ ∀ k, k < csh.length →
    csh.getD k 0 = 1 ∨ csh.getD k 0 = sh.getD (k + (sh.length - csh.length)) 0

instance (csh sh : List Nat) : Decidable (BroadcastsTo csh sh) := by
  unfold BroadcastsTo; infer_instance

end Xt.Spec
