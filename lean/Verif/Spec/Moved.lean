import Verif.Model.Moved
import Verif.Props.Container
/-!
# Specification for C103: variables that hold values

A variable holds a value — a shape and an element for each index — or none because it was moved from.  Statements act on values;
members, strides and storages do not occur.
-/

namespace Xt.Spec

variable {α : Type}

/-- A variable: its type, the shape that it reports, and its elements unless it was moved from. -/
structure MvVal (α : Type) where
  rank : Option Nat
  L : Layout
  shape : List Nat
  val : Option (List Nat → α)

/-- The shape is one that the type can have. -/
def RankFits (rank : Option Nat) (s : List Nat) : Prop := ∀ n, rank = some n → s.length = n

/-- All elements that the expression reads are elements of variables that hold values. -/
def MvReadable (a : List (MvVal α)) (e : MvExpr α) : Prop :=
  ∀ i, InBounds (e.shape (a.map (·.shape))) i → ∀ r ∈ e.reads (a.map (·.shape)) i,
    ∃ v f, a[r.1]? = some v ∧ v.val = some f ∧ InBounds v.shape r.2

/-- `f` are the elements of the expression. -/
def MvMeans (a : List (MvVal α)) (e : MvExpr α) (f : List Nat → α) : Prop :=
  ∀ i, InBounds (e.shape (a.map (·.shape))) i → ∃ xs,
    List.Forall₂ (fun (r : Nat × List Nat) (x : α) => ∃ v h, a[r.1]? = some v ∧ v.val = some h ∧ x = h r.2)
      (e.reads (a.map (·.shape)) i) xs ∧ f i = e.value (a.map (·.shape)) i xs

/-- A variable without value. -/
def MvVal.gone (v : MvVal α) : MvVal α := { v with val := none }

/-- A variable without value; an `xarray` also loses its shape. -/
def MvVal.goneNew (v : MvVal α) : MvVal α :=
  { v with val := none, shape := if v.rank = none then [] else v.shape }

/-- What a statement does to the values. -/
def MvStep (a : List (MvVal α)) : MvStmt α → List (MvVal α) → Prop
  | .create rank L e, a' => ∃ f, MvMeans a e f ∧ a' = a ++ [⟨rank, L, e.shape (a.map (·.shape)), some f⟩]
  | .copyNew j, a' => ∃ v, a[j]? = some v ∧ a' = a ++ [v]
  | .moveNew j, a' => ∃ v, a[j]? = some v ∧ a' = a.set j v.goneNew ++ [v]
  | .convNew rank j, a' => ∃ v, a[j]? = some v ∧ a' = a.set j v.gone ++ [{ v with rank := rank }]
  | .copy k j, a' => ∃ v, a[j]? = some v ∧ a' = a.set k v
  | .move k j, a' => ∃ v, a[j]? = some v ∧ a' = if k = j then a else (a.set k v).set j v.gone
  | .conv k j, a' => ∃ x v, a[k]? = some x ∧ a[j]? = some v ∧ a' = (a.set k { v with rank := x.rank }).set j v.gone
  | .assign k e _, a' => ∃ x f, a[k]? = some x ∧ MvMeans a e f ∧
      a' = a.set k { x with shape := e.shape (a.map (·.shape)), val := some f }
  | .noalias k e, a' => ∃ x f, a[k]? = some x ∧ MvMeans a e f ∧
      a' = a.set k { x with shape := e.shape (a.map (·.shape)), val := some f }
  | .resize k s, a' => ∃ x f, a[k]? = some x ∧ (s = x.shape → ∀ h, x.val = some h → ∀ i, InBounds s i → f i = h i) ∧
      a' = a.set k { x with shape := s, val := some f }

/-- What a program does to the values. -/
def MvSteps : List (MvVal α) → List (MvStmt α) → List (MvVal α) → Prop
  | a, [], a' => a' = a
  | a, s :: r, a' => ∃ b, MvStep a s b ∧ MvSteps b r a'

/-- The variable can be given elements of shape `s` in place: it holds a value, or another shape, or there are no elements. -/
def MvReady (x : MvVal α) (s : List Nat) : Prop := x.val ≠ none ∨ x.shape ≠ s ∨ numel s = 0

/-- What a user must see to.  The last conditions of assignments and of `resize`, `MvReady`, should not be necessary. -/
def MvAllowed (force : Bool) (a : List (MvVal α)) : MvStmt α → Prop
  | .create rank _ e => MvReadable a e ∧ RankFits rank (e.shape (a.map (·.shape)))
  | .copyNew j => j < a.length
  | .moveNew j => j < a.length
  | .convNew rank j => ∃ v, a[j]? = some v ∧ (rank = none ↔ v.rank ≠ none) ∧ RankFits rank v.shape
  | .copy k j => ∃ x v, a[k]? = some x ∧ a[j]? = some v ∧ x.rank = v.rank ∧ x.L = v.L
  | .move k j => ∃ x v, a[k]? = some x ∧ a[j]? = some v ∧ x.rank = v.rank ∧ x.L = v.L
  | .conv k j => ∃ x v, a[k]? = some x ∧ a[j]? = some v ∧ (x.rank = none ↔ v.rank ≠ none) ∧ x.L = v.L ∧
      RankFits x.rank v.shape
  | .assign k e overlap => ∃ x, a[k]? = some x ∧ MvReadable a e ∧ RankFits x.rank (e.shape (a.map (·.shape))) ∧
      (force = true ∨ overlap = true ∨
        (∀ i, ∀ r ∈ e.reads (a.map (·.shape)) i, r.1 ≠ k) ∧ MvReady x (e.shape (a.map (·.shape))))
  | .noalias k e => ∃ x, a[k]? = some x ∧ MvReadable a e ∧ RankFits x.rank (e.shape (a.map (·.shape))) ∧
      (∀ i, ∀ r ∈ e.reads (a.map (·.shape)) i, r.1 ≠ k) ∧ MvReady x (e.shape (a.map (·.shape)))
  | .resize k s => ∃ x, a[k]? = some x ∧ RankFits x.rank s ∧ MvReady x s

/-- All statements of a program are allowed, whatever those before have done. -/
def MvSafe (force : Bool) : List (MvStmt α) → List (MvVal α) → Prop
  | [], _ => True
  | s :: r, a => MvAllowed force a s ∧ ∀ a', MvStep a s a' → MvSafe force r a'

/-- The expression has nothing to do with variable `k`. -/
structure MvApart (k : Nat) (e : MvExpr α) : Prop where
  shape : ∀ (ss : List (List Nat)) s, e.shape (ss.set k s) = e.shape ss
  reads : ∀ (ss : List (List Nat)) s i, e.reads (ss.set k s) i = e.reads ss i
  value : ∀ (ss : List (List Nat)) s i xs, e.value (ss.set k s) i xs = e.value ss i xs
  other : ∀ (ss : List (List Nat)) i, ∀ r ∈ e.reads ss i, r.1 ≠ k

/-- What is assigned in place has nothing to do with the destination. -/
def MvAparts (force : Bool) : MvStmt α → Prop
  | .assign k e overlap => force = true ∨ overlap = true ∨ MvApart k e
  | .noalias k e => MvApart k e
  | _ => True

/-- The members of a variable with a value are those of an array with these elements; one that was moved from has no elements. -/
structure MvHolds (v : MvVar α) (w : MvVal α) : Prop where
  rank : v.rank = w.rank
  L : v.cont.L = w.L
  shape : v.cont.shape = w.shape
  fits : RankFits w.rank w.shape
  elems : ∀ f, w.val = some f → Consistent v.cont ∧ ∀ i, InBounds w.shape i → v.cont.elem? (toInts i) = some (f i)
  gone : w.val = none → v.cont.storage = [] ∧ ∃ st : List α, Consistent ({ v.cont with storage := st } : Cont α)

/-- All variables. -/
def MvWorld (σ : List (MvVar α)) (a : List (MvVal α)) : Prop := List.Forall₂ MvHolds σ a

end Xt.Spec
