import Verif.Model.Program
import Verif.Spec.Assign
import Verif.Spec.View
import Verif.Spec.Broadcast
import Verif.Spec.StridedView
/-!
# Specification of programs over arrays

Arrays are functions from indices to values.  A statement replaces the value of one variable by
a value computed from the variables before the statement, or fails and replaces nothing.
-/

namespace Xt.Spec

variable {β : Type}

/-- An array: shape and elements (only those at indices of the shape count). -/
structure Tab (β : Type) where
  shape : List Nat
  at' : List Nat → β

/-- Extent of the broadcast on the `k`-th axis from the end: the first extent other than 1. -/
def bcExtent (S : List (List Nat)) (k : Nat) : Nat :=
  ((S.filterMap fun s => axisR s k).find? (· ≠ 1)).getD 1

/-- NumPy's rule as a function. -/
def bcShape (S : List (List Nat)) : Option (List Nat) :=
  let dim := (S.map List.length).foldr max 0
  let out := ((List.range dim).map (bcExtent S)).reverse
  if ∀ s ∈ S, BroadcastsTo s out then some out else none

/-- Shape of a selection. -/
def vshape (sh : List Nat) (us : List USlice) : List Nat := selShape sh (expandEllipsis sh.length us)

/-- Element of the parent selected by an index of the selection. -/
def vindex (sh : List Nat) (us : List USlice) (idx : List Nat) : List Nat :=
  (selIndex sh (expandEllipsis sh.length us) idx).map Int.toNat

mutual
/-- Value of an expression at an index of a shape its operands broadcast to. -/
def pval [Inhabited β] (env : List (Tab β)) : PEx β → List Nat → β
  | .var i, idx => match env[i]? with
    | some t => t.at' (bcIndex t.shape idx)
    | none => default
  | .slice i us, idx => match env[i]? with
    | some t => t.at' (vindex t.shape us (bcIndex (vshape t.shape us) idx))
    | none => default
  | .lit v, _ => v
  | .gen s g, idx => g (toInts (bcIndex s idx))
  | .fn f args, idx => f (pvals env args idx)
  | .bcast e s, idx => pval env e (bcIndex s idx)
/-- Values of the operands. -/
def pvals [Inhabited β] (env : List (Tab β)) : PArgs β → List Nat → List β
  | .nil, _ => []
  | .cons e es, idx => pval env e idx :: pvals env es idx
end

mutual
/-- Shapes of the operands that take part in broadcasting. -/
def pleaves (env : List (Tab β)) : PEx β → List (List Nat)
  | .var i => match env[i]? with
    | some t => [t.shape]
    | none => []
  | .slice i us => match env[i]? with
    | some t => [vshape t.shape us]
    | none => []
  | .lit _ => []
  | .gen s _ => [s]
  | .fn _ args => pleavess env args
  | .bcast _ s => [s]
/-- Of all operands. -/
def pleavess (env : List (Tab β)) : PArgs β → List (List Nat)
  | .nil => []
  | .cons e es => pleaves env e ++ pleavess env es
end

mutual
/-- Variables mentioned. -/
def pvars : PEx β → List Nat
  | .var i => [i]
  | .slice i _ => [i]
  | .lit _ => []
  | .gen _ _ => []
  | .fn _ args => pvarss args
  | .bcast e _ => pvars e
/-- By all operands. -/
def pvarss : PArgs β → List Nat
  | .nil => []
  | .cons e es => pvars e ++ pvarss es
end

/-- The array with the selected elements replaced. -/
def Tab.over (t : Tab β) (us : List USlice) (g : List Nat → β → β) : Tab β :=
  ⟨t.shape, fun p => match (rowIndices (vshape t.shape us)).find? fun idx => vindex t.shape us idx = p with
    | some idx => g idx (t.at' p)
    | none => t.at' p⟩

/-- What a statement does; `none`: it fails and nothing changes. -/
def pstep [Inhabited β] (env : List (Tab β)) : PStmt β → Option (List (Tab β))
  | .decl _ e => (bcShape (pleaves env e)).map fun out => env ++ [⟨out, pval env e⟩]
  | .assign i e => put i e
  | .noalias i e => put i e
  | .opAssign i f e => upd i f e
  | .opNoalias i f e => upd i f e
  | .scalarOp i f => env[i]?.map fun t => env.set i ⟨t.shape, fun idx => f (t.at' idx)⟩
  | .viewAssign i us e => over i us e fun idx _ => pval env e idx
  | .viewOp i us f e => over i us e fun idx v => f v (pval env e idx)
  | .viewScalar i us f => env[i]?.map fun t => env.set i (t.over us fun _ v => f v)
  | .viewFill i us c => env[i]?.map fun t => env.set i (t.over us fun _ _ => c)
where
  /-- Replace the variable by the value of the expression. -/
  put (i : Nat) (e : PEx β) :=
    (bcShape (pleaves env e)).map fun out => env.set i ⟨out, pval env e⟩
  /-- Combine the variable with the value of the expression. -/
  upd (i : Nat) (f : β → β → β) (e : PEx β) := env[i]?.bind fun t =>
    (bcShape (t.shape :: pleaves env e)).map fun out =>
      env.set i ⟨out, fun idx => f (t.at' (bcIndex t.shape idx)) (pval env e idx)⟩
  /-- Replace the selected elements if the expression broadcasts to the selection. -/
  over (i : Nat) (us : List USlice) (e : PEx β) (g : List Nat → β → β) := env[i]?.bind fun t =>
    if ∀ s ∈ pleaves env e, BroadcastsTo s (vshape t.shape us) then some (env.set i (t.over us g))
    else none

/-- A program: final values and which statements completed. -/
def prun [Inhabited β] (env : List (Tab β)) : List (PStmt β) → List (Tab β) × List Bool
  | [] => (env, [])
  | s :: p => match pstep env s with
    | some env' => ((prun env' p).1, true :: (prun env' p).2)
    | none => ((prun env p).1, false :: (prun env p).2)

/-! ### Programs with a meaning -/

/-- The selection runs forwards along every axis of the array, or backwards along every axis (axes on which it has
one position do both). -/
def OneWay (sh : List Nat) (us : List USlice) : Prop :=
  (∀ i j, InBounds (vshape sh us) i → InBounds (vshape sh us) j → List.Forall₂ (· ≤ ·) i j →
    List.Forall₂ (· ≤ ·) (vindex sh us i) (vindex sh us j)) ∨
  ∀ i j, InBounds (vshape sh us) i → InBounds (vshape sh us) j → List.Forall₂ (· ≤ ·) i j →
    List.Forall₂ (· ≤ ·) (vindex sh us j) (vindex sh us i)

/-- A slice that runs backwards: a range with a negative step; integers and newaxes do not run. -/
def Backward : USlice → Prop
  | .int _ => True
  | .newaxis => True
  | .range _ _ (some k) => k < 0
  | _ => False

/-- A selection with integers, ranges, `all`, newaxes and at most one ellipsis, within bounds, that does not run
forwards along one axis and backwards along another. -/
structure SaneSlices (sh : List Nat) (us : List USlice) : Prop where
  ell : us.count .ellipsis ≤ 1
  valid : SlicesValid sh (expandEllipsis sh.length us)
  strided : NoKeepDrop us
  ints : IntsNonneg us
  oneWay : OneWay sh us
  small : szMax ∉ vshape sh us ∧ numel (vshape sh us) < 2 ^ 64

mutual
/-- Variables exist, selections are in bounds, explicit shapes can be broadcast to. -/
def SaneEx (env : List (Tab β)) : PEx β → Prop
  | .var i => ∃ t, env[i]? = some t
  | .slice i us => ∃ t, env[i]? = some t ∧ SaneSlices t.shape us
  | .lit _ => True
  | .gen s _ => s ≠ [] ∧ szMax ∉ s
  | .fn _ args => SaneArgs env args
  | .bcast e s => SaneEx env e ∧ szMax ∉ s ∧ ∀ x ∈ pleaves env e, BroadcastsTo x s
/-- The same for operands. -/
def SaneArgs (env : List (Tab β)) : PArgs β → Prop
  | .nil => True
  | .cons e es => SaneEx env e ∧ SaneArgs env es
end

/-- The broadcast of the shapes, if there is one, has fewer than `2^64` elements. -/
def SmallResult (S : List (List Nat)) : Prop := ∀ out, bcShape S = some out → numel out < 2 ^ 64

/-- Statements with a meaning: `noalias` promises that the destination is not read; an
expression assigned to a view either broadcasts to the view or conflicts with it. -/
def Sane (env : List (Tab β)) : PStmt β → Prop
  | .decl l e => (l = .row_major ∨ l = .column_major) ∧ SaneEx env e ∧ SmallResult (pleaves env e)
  | .assign i e => (∃ t, env[i]? = some t) ∧ SaneEx env e ∧ SmallResult (pleaves env e)
  | .noalias i e => (∃ t, env[i]? = some t) ∧ SaneEx env e ∧ SmallResult (pleaves env e) ∧ i ∉ pvars e
  | .opAssign i _ e => ∃ t, env[i]? = some t ∧ SaneEx env e ∧ SmallResult (t.shape :: pleaves env e)
  | .opNoalias i _ e => ∃ t, env[i]? = some t ∧ SaneEx env e ∧
      SmallResult (t.shape :: pleaves env e) ∧ i ∉ pvars e ∧
      ∀ out, bcShape (t.shape :: pleaves env e) = some out → 0 ∉ out
  | .scalarOp i _ => ∃ t, env[i]? = some t
  | .viewAssign i us e => ∃ t, env[i]? = some t ∧ SaneSlices t.shape us ∧ SaneEx env e ∧
      ((∀ s ∈ pleaves env e, BroadcastsTo s (vshape t.shape us)) ∨
        Conflict (vshape t.shape us :: pleaves env e))
  | .viewOp i us _ e => ∃ t, env[i]? = some t ∧ SaneSlices t.shape us ∧ SaneEx env e ∧
      ((∀ s ∈ pleaves env e, BroadcastsTo s (vshape t.shape us)) ∨
        Conflict (vshape t.shape us :: pleaves env e))
  | .viewScalar i us _ => ∃ t, env[i]? = some t ∧ SaneSlices t.shape us
  | .viewFill i us _ => ∃ t, env[i]? = some t ∧ SaneSlices t.shape us

/-- Every statement has a meaning when it is reached. -/
def SaneRun [Inhabited β] (env : List (Tab β)) : List (PStmt β) → Prop
  | [] => True
  | s :: p => Sane env s ∧ SaneRun ((pstep env s).getD env) p

end Xt.Spec
